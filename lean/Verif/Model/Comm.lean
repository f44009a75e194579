import Verif.Model.Basic
import Mathlib.Data.Nat.Bitwise

/-!
# Communication between submeshes

MPI tags, the layout of the exchange buffers, and the copies in and out of them.

Simplifications: doubles are elements of an arbitrary type, `uint` indices are natural numbers
(a rank boundary with more than 2^32 doubles is not considered), MPI is a set of FIFO channels, one per
(source rank, destination rank, tag), which is the ordering rule of the MPI standard on one communicator.
-/

namespace Verif.Comm
open Verif

/-! ### Tags: source/communication/ompi_communicator.cpp -/

/-- `(unsigned short)x`. -/
def ushort (x : ℕ) : ℕ := x % 65536

/-- A rank boundary as read from a `.dbmd` file (mesh_metadata.hpp, `RankBoundaryMetaData`). -/
structure RB where
  locIn : ℕ
  subIn : ℕ
  locEx : ℕ
  subEx : ℕ
deriving DecidableEq, Repr

/-- ompi_communicator.cpp lines 12-13: both operands are promoted to `int`, so nothing is lost in the shift. -/
def sendTag (b : RB) : ℕ := (ushort b.subIn <<< 8) ||| ushort b.subEx

/-- ompi_communicator.cpp lines 14-15. -/
def recvTag (b : RB) : ℕ := (ushort b.subEx <<< 8) ||| ushort b.subIn

/-- ompi_communicator.cpp line 9. -/
def sendRank (b : RB) : ℕ := b.locEx

/-- ompi_communicator.cpp line 10. -/
def recvRank (b : RB) : ℕ := b.locEx

/-- The envelope of a message started by `SendAll` (lines 40-46, 61-63) on the process of rank `locIn`:
source rank, destination rank, tag. All communication types of one boundary use the same envelope. -/
def sendChan (b : RB) : ℕ × ℕ × ℕ := (b.locIn, sendRank b, sendTag b)

/-- The envelope accepted by a receive started by `ReceiveAll` (lines 48-54, 65-67). -/
def recvChan (b : RB) : ℕ × ℕ × ℕ := (recvRank b, b.locIn, recvTag b)

/-- MPI matching: the k-th send on a channel is received by the k-th receive on that channel.
`sends` and `recvs` list (boundary, communication type) in the order in which they were started. -/
def matched (sends recvs : List (RB × ℕ)) (ch : ℕ × ℕ × ℕ) : List ((RB × ℕ) × (RB × ℕ)) :=
  (sends.filter fun s => sendChan s.1 = ch).zip (recvs.filter fun r => recvChan r.1 = ch)

/-! ### Buffer layout -/

/-- The four problem types. -/
inductive Problem | rkdg | ehdg | ihdg | gn
deriving DecidableEq, Repr

/-- Increments of `begin_index` in `comm_buffer_offsets`, listed by communication type number
(swe_definitions.hpp 71-84, gn_definitions.hpp 73-78):
rkdg_swe_problem.hpp 73-75, ehdg_swe_problem.hpp 83-97, ihdg_swe_problem.hpp 83-96, ehdg_gn_problem.hpp 83-97. -/
def reserve : Problem → ℕ → List ℕ
  | .rkdg, ngp => [2, 3 * ngp + 1, 3 + ngp + 1]
  | .ehdg, ngp => [2, ngp, 3 * ngp + 1, 3 + ngp + 1]
  | .ihdg, ngp => [2, 1 + (3 + 1) * ngp, 3 + ngp + 1]
  | .gn, ngp => [2, ngp, 3 * ngp + 1, 3 + ngp + 1, 1, 8 * ngp, 8 * ngp]

/-- `ProblemType::n_communications` (swe_definitions.hpp 72, 77, 82; gn_definitions.hpp 73). -/
def nComm : Problem → ℕ
  | .rkdg => 3
  | .ehdg => 4
  | .ihdg => 3
  | .gn => 7

/-- `comm_buffer_offsets`: the offsets of this boundary and the new `begin_index`. -/
def commBufferOffsets (P : Problem) (beg : List ℕ) (ngp : ℕ) : List ℕ × List ℕ :=
  (beg, List.zipWith (· + ·) beg (reserve P ngp))

/-- `GaussLegendre_1D::GetNumGP` (integrations_1D/gausslegendre_1D.cpp): ceil((p+1)/2). -/
def numGP (p : ℕ) : ℕ := (p + 2) / 2

/-- A raw distributed boundary: plain, or a levee with its node ids. -/
inductive Raw where
  | plain
  | levee (nodes : List ℕ)
deriving DecidableEq, Repr

/-- swe_pre_create_dbound.hpp lines 85-100: the levee data of one node are those of every entry that mentions the node. -/
def leveeAt {L : Type} (data : List ((ℕ × ℕ) × L)) (node : ℕ) : Res (List L) :=
  let found := data.filter fun d => d.1.1 = node ∨ d.1.2 = node
  if found = [] then .error .exc else .ok (found.map Prod.snd)

/-- Levee data handed to a distributed levee boundary (lines 80-101); a plain boundary gets none. -/
def leveeOf {L : Type} (data : List ((ℕ × ℕ) × L)) : Raw → Res (List L)
  | .plain => .ok []
  | .levee nodes => do
    let parts ← nodes.mapM (leveeAt data)
    pure parts.flatten

/-- The created boundary: key, levee data, offsets of its exchanger. -/
structure DBound (L : Type) where
  key : ℕ × ℕ
  ngp : ℕ
  levee : List L
  offset : List ℕ
deriving DecidableEq, Repr

/-- One iteration of the loop of swe_pre_create_dbound.hpp lines 44-120 over the entries of a rank boundary.
`plain` and `levees` are the two maps of raw boundaries; `entry` is ((element_in, bound_in), p). -/
def createOne {L : Type} (P : Problem) (data : List ((ℕ × ℕ) × L)) (raw : List ((ℕ × ℕ) × Raw)) (beg : List ℕ)
    (entry : (ℕ × ℕ) × ℕ) : Res (DBound L × List ((ℕ × ℕ) × Raw) × List ℕ) := do
  let r ← atKey raw entry.1
  let ngp := numGP (2 * entry.2 + 1)
  let lv ← leveeOf data r
  let ob := commBufferOffsets P beg ngp
  pure (⟨entry.1, ngp, lv, ob.1⟩, raw.filter (fun x => x.1 ≠ entry.1), ob.2)

/-- The loop over all entries of a rank boundary. -/
def createAll {L : Type} (P : Problem) (data : List ((ℕ × ℕ) × L)) :
    List ((ℕ × ℕ) × Raw) → List ℕ → List ((ℕ × ℕ) × ℕ) → Res (List (DBound L) × List ((ℕ × ℕ) × Raw) × List ℕ)
  | raw, beg, [] => .ok ([], raw, beg)
  | raw, beg, e :: es => do
    let x ← createOne P data raw beg e
    let y ← createAll P data x.2.1 x.2.2 es
    pure (x.1 :: y.1, y.2)

/-- Boundaries of one rank boundary, remaining raw boundaries and buffer sizes
(swe_pre_create_dbound.hpp lines 33, 44-129: `begin_index` starts at zero, the buffers are resized to it). -/
def createRankBoundary {L : Type} (P : Problem) (data : List ((ℕ × ℕ) × L)) (raw : List ((ℕ × ℕ) × Raw))
    (entries : List ((ℕ × ℕ) × ℕ)) : Res (List (DBound L) × List ((ℕ × ℕ) × Raw) × List ℕ) :=
  createAll P data raw (List.replicate (nComm P) 0) entries

/-! ### Exchange: source/communication/db_data_exchanger.hpp -/

/-- `DBDataExchanger::SetToSendBuffer`, lines 47-49: `std::copy` past the end is undefined behaviour. -/
def setToSend {D : Type} (buf : List (List D)) (offset : List ℕ) (comm : ℕ) (msg : List D) : Res (List (List D)) := do
  let b ← idx buf comm
  let o ← idx offset comm
  if o + msg.length ≤ b.length then
    pure (buf.set comm (b.take o ++ msg ++ b.drop (o + msg.length)))
  else .error .ub

/-- `DBDataExchanger::GetFromReceiveBuffer`, lines 51-55. -/
def getFromReceive {D : Type} (buf : List (List D)) (offset : List ℕ) (comm n : ℕ) : Res (List D) := do
  let b ← idx buf comm
  let o ← idx offset comm
  if o + n ≤ b.length then pure ((b.drop o).take n) else .error .ub

/-- A sequence of `SetToSendBuffer` calls. -/
def setAll {D : Type} : List (List D) → List (List ℕ × ℕ × List D) → Res (List (List D))
  | buf, [] => .ok buf
  | buf, w :: ws => do
    let buf' ← setToSend buf w.1 w.2.1 w.2.2
    setAll buf' ws

/-! ### Sizes of the messages -/

/-- Every (communication type, size sent, size read) pair occurring in the kernels, for boundaries with `ngp` Gauss points.
RKDG: swe_pre_init_data.hpp 339-355; rkdg_swe_proc_dbound.hpp 14-37, rkdg_swe_dbc_distributed.hpp 42,
rkdg_swe_dbc_distributed_levee.hpp 68; swe_CS_slope_limiter.hpp 58, 80, swe_trouble_check.hpp 75.
EHDG: the same and ehdg_swe_pre_init_global_prob.hpp 62-88.
IHDG: swe_pre_init_data, slope limiter, ihdg_swe_pre_init_global_prob.hpp 198-273.
GN: EHDG and gn_pre_init_data.hpp 88, ehdg_gn_pre_init_global_prob.hpp 161-194, ehdg_gn_proc_ompi_sol_glob_prob.hpp 557-607,
kernels_preprocessor/grad_methods/*_dbath_*.hpp, kernels_processor/grad_methods/*_derivatives_*.hpp. -/
def messages : Problem → ℕ → List (ℕ × ℕ × ℕ)
  | .rkdg, n => [(0, 2, 2), (1, 1 + 3 * n, 1), (1, 1 + 3 * n, 1 + 3 * n), (2, 1 + 3 + n, 1 + 3), (2, 1 + 3 + n, 1 + 3 + n)]
  | .ehdg, n => [(0, 2, 2), (1, n, n), (2, 1 + 3 * n, 1), (2, 1 + 3 * n, 1 + 3 * n), (3, 1 + 3 + n, 1 + 3),
      (3, 1 + 3 + n, 1 + 3 + n)]
  | .ihdg, n => [(0, 2, 2), (1, (3 + 1) * n + 1, 1 + (3 + 1) * n), (2, 1 + 3 + n, 1 + 3), (2, 1 + 3 + n, 1 + 3 + n)]
  | .gn, n => [(0, 2, 2), (1, n, n), (2, 1 + 3 * n, 1), (2, 1 + 3 * n, 1 + 3 * n), (3, 1 + 3 + n, 1 + 3),
      (3, 1 + 3 + n, 1 + 3 + n), (4, 1, 1),
      (5, 2, 2), (5, 4, 4), (5, 2 * n, 2 * n), (5, 8, 8), (5, 1, 1), (5, 4 + 2 * n, 4 + 2 * n), (5, n, n), (5, 4 * n, 4 * n),
      (6, 1 + 2, 3), (6, 2 + 4, 2 + 4), (6, 4 + n + 1, 4 + n + 1), (6, 8, 8), (6, n + 1, n + 1),
      (6, (3 + 1) * n + 1, (3 + 1) * n + 1), (6, 4 * n, 4 * n)]

end Verif.Comm
