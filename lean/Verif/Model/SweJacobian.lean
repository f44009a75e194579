import Verif.Model.SweFlux
import Mathlib.Data.Matrix.Mul
import Mathlib.LinearAlgebra.Matrix.Notation

/-!
# Flux Jacobian, eigendecomposition and stabilization parameter

Models, one Gauss point at a time, `get_dF_dq` and `get_dFn_dq` of `source/problem/SWE/problem_flux/swe_flux.hpp`,
`source/problem/SWE/problem_jacobian/swe_jacobian.hpp`, `source/utilities/sign.hpp` and
`source/problem/SWE/problem_stabilization_parameters/swe_stab_param_LF.hpp`.

Simplifications: doubles are elements of an ordered field, `std::sqrt` is a parameter `sq`, division by zero gives zero. Rows and columns are
numbered as in `SWE::Variables` (0 = ze, 1 = qx, 2 = qy).
-/

namespace Verif.Swe
open Verif.Geometry Matrix

variable {K : Type} [Field K] [LinearOrder K]

/-- `StatMatrix<double, 3, 3>`. -/
abbrev M3 (K : Type) := Matrix (Fin 3) (Fin 3) K

/-! ### `swe_flux.hpp` -/

/-- Lines 70-102 (`get_dF_dq`), derivative of the x flux. -/
def dFxDq (g : K) (q : Q K) (a : Aux K) : M3 K :=
  let u := q.qx / a.h
  let v := q.qy / a.h
  !![0, 1, 0; -u * u + g * a.h, 2 * u, 0; -u * v, v, u]

/-- Lines 70-102 (`get_dF_dq`), derivative of the y flux. -/
def dFyDq (g : K) (q : Q K) (a : Aux K) : M3 K :=
  let u := q.qx / a.h
  let v := q.qy / a.h
  !![0, 0, 1; -u * v, v, u; -v * v + g * a.h, 0, 2 * v]

/-- Lines 104-128 (`get_dFn_dq`). -/
def dFnDq (g : K) (q : Q K) (a : Aux K) (n : P2 K) : M3 K :=
  let u := q.qx / a.h
  let v := q.qy / a.h
  !![0, n.x, n.y;
     (-u * u + g * a.h) * n.x - u * v * n.y, 2 * u * n.x + v * n.y, u * n.y;
     -u * v * n.x + (-v * v + g * a.h) * n.y, v * n.x, u * n.x + 2 * v * n.y]

/-! ### `swe_jacobian.hpp` -/

/-- `sign.hpp` lines 8-11. -/
def sgn (x : K) : K := (if 0 < x then 1 else 0) - (if x < 0 then 1 else 0)

/-- The variable `c` of the functions below. -/
def cel (sq : K → K) (g h : K) : K := sq (g * h)

/-- The variable `dc_dze` of the functions below. -/
def dcel (sq : K → K) (g h : K) : K := sq (g / h) / 2

/-- The variable `un` of the functions below. -/
def vn (u v : K) (n : P2 K) : K := u * n.x + v * n.y

/-- `L`, lines 313-326. -/
def matL (sq : K → K) (g h u v : K) (n : P2 K) : M3 K :=
  let c := cel sq g h
  let un := vn u v n
  !![un - c, 0, 0; 0, un, 0; 0, 0, un + c]

/-- `dL_dze`, lines 328-345. -/
def dLze (sq : K → K) (g h u v : K) (n : P2 K) : M3 K :=
  let dc := dcel sq g h
  let dun := -(u * n.x + v * n.y) / h
  !![dun - dc, 0, 0; 0, dun, 0; 0, 0, dun + dc]

/-- `dL_dqx`, lines 347-363. -/
def dLqx (h : K) (n : P2 K) : M3 K :=
  let dun := n.x / h
  !![dun, 0, 0; 0, dun, 0; 0, 0, dun]

/-- `dL_dqy`, lines 365-381. -/
def dLqy (h : K) (n : P2 K) : M3 K :=
  let dun := n.y / h
  !![dun, 0, 0; 0, dun, 0; 0, 0, dun]

/-- `absL`, lines 383-396. -/
def absL (sq : K → K) (g h u v : K) (n : P2 K) : M3 K :=
  let c := cel sq g h
  let un := vn u v n
  !![|un - c|, 0, 0; 0, |un|, 0; 0, 0, |un + c|]

/-- `dabsL_dze`, lines 398-418. -/
def dabsLze (sq : K → K) (g h u v : K) (n : P2 K) : M3 K :=
  let c := cel sq g h
  let un := vn u v n
  let dc := dcel sq g h
  let dun := -(u * n.x + v * n.y) / h
  !![(dun - dc) * sgn (un - c), 0, 0; 0, dun * sgn un, 0; 0, 0, (dun + dc) * sgn (un + c)]

/-- `dabsL_dqx`, lines 420-439. -/
def dabsLqx (sq : K → K) (g h u v : K) (n : P2 K) : M3 K :=
  let c := cel sq g h
  let un := vn u v n
  let dun := n.x / h
  !![dun * sgn (un - c), 0, 0; 0, dun * sgn un, 0; 0, 0, dun * sgn (un + c)]

/-- `dabsL_dqy`, lines 441-460. -/
def dabsLqy (sq : K → K) (g h u v : K) (n : P2 K) : M3 K :=
  let c := cel sq g h
  let un := vn u v n
  let dun := n.y / h
  !![dun * sgn (un - c), 0, 0; 0, dun * sgn un, 0; 0, 0, dun * sgn (un + c)]

/-- `R`, lines 462-480. -/
def matR (sq : K → K) (g h u v : K) (n : P2 K) : M3 K :=
  let c := cel sq g h
  !![1, 0, 1; u - c * n.x, -n.y, u + c * n.x; v - c * n.y, n.x, v + c * n.y]

/-- `dR_dze`, lines 482-499. -/
def dRze (sq : K → K) (g h u v : K) (n : P2 K) : M3 K :=
  let dc := dcel sq g h
  !![0, 0, 0; -u / h - dc * n.x, 0, -u / h + dc * n.x; -v / h - dc * n.y, 0, -v / h + dc * n.y]

/-- `dR_dqx`, lines 501-514. -/
def dRqx (h : K) : M3 K := !![0, 0, 0; 1 / h, 0, 1 / h; 0, 0, 0]

/-- `dR_dqy`, lines 516-529. -/
def dRqy (h : K) : M3 K := !![0, 0, 0; 0, 0, 0; 1 / h, 0, 1 / h]

/-- `invR`, lines 531-550. -/
def invR (sq : K → K) (g h u v : K) (n : P2 K) : M3 K :=
  let c := cel sq g h
  let un := vn u v n
  !![(c + un) / (2 * c), -n.x / (2 * c), -n.y / (2 * c);
     u * n.y - v * n.x, -n.y, n.x;
     (c - un) / (2 * c), n.x / (2 * c), n.y / (2 * c)]

/-- `dinvR_dze`, lines 552-578. -/
def dinvRze (sq : K → K) (g h u v : K) (n : P2 K) : M3 K :=
  let c := cel sq g h
  let csq := g * h
  let un := vn u v n
  let dc := dcel sq g h
  !![-3 * un / (4 * h * c), dc * n.x / (2 * csq), dc * n.y / (2 * csq);
     -(u * n.y - v * n.x) / h, 0, 0;
     3 * un / (4 * h * c), -dc * n.x / (2 * csq), -dc * n.y / (2 * csq)]

/-- `dinvR_dqx`, lines 580-596. -/
def dinvRqx (sq : K → K) (g h : K) (n : P2 K) : M3 K :=
  let c := cel sq g h
  !![n.x / h / (2 * c), 0, 0; n.y / h, 0, 0; -n.x / h / (2 * c), 0, 0]

/-- `dinvR_dqy`, lines 598-614. -/
def dinvRqy (sq : K → K) (g h : K) (n : P2 K) : M3 K :=
  let c := cel sq g h
  !![n.y / h / (2 * c), 0, 0; -n.x / h, 0, 0; -n.y / h / (2 * c), 0, 0]

/-- `get_A`, lines 27-41. -/
def getA (sq : K → K) (g : K) (q : Q K) (a : Aux K) (n : P2 K) : M3 K :=
  let u := q.qx / a.h
  let v := q.qy / a.h
  matR sq g a.h u v n * matL sq g a.h u v n * invR sq g a.h u v n

/-- `get_dA_dze`, lines 43-59. -/
def getdAze (sq : K → K) (g : K) (q : Q K) (a : Aux K) (n : P2 K) : M3 K :=
  let u := q.qx / a.h
  let v := q.qy / a.h
  dRze sq g a.h u v n * matL sq g a.h u v n * invR sq g a.h u v n + matR sq g a.h u v n * dLze sq g a.h u v n * invR sq g a.h u v n +
    matR sq g a.h u v n * matL sq g a.h u v n * dinvRze sq g a.h u v n

/-- `get_dA_dqx`, lines 61-77. -/
def getdAqx (sq : K → K) (g : K) (q : Q K) (a : Aux K) (n : P2 K) : M3 K :=
  let u := q.qx / a.h
  let v := q.qy / a.h
  dRqx a.h * matL sq g a.h u v n * invR sq g a.h u v n + matR sq g a.h u v n * dLqx a.h n * invR sq g a.h u v n +
    matR sq g a.h u v n * matL sq g a.h u v n * dinvRqx sq g a.h n

/-- `get_dA_dqy`, lines 79-95. -/
def getdAqy (sq : K → K) (g : K) (q : Q K) (a : Aux K) (n : P2 K) : M3 K :=
  let u := q.qx / a.h
  let v := q.qy / a.h
  dRqy a.h * matL sq g a.h u v n * invR sq g a.h u v n + matR sq g a.h u v n * dLqy a.h n * invR sq g a.h u v n +
    matR sq g a.h u v n * matL sq g a.h u v n * dinvRqy sq g a.h n

/-- `get_absA`, lines 97-111. -/
def getAbsA (sq : K → K) (g : K) (q : Q K) (a : Aux K) (n : P2 K) : M3 K :=
  let u := q.qx / a.h
  let v := q.qy / a.h
  matR sq g a.h u v n * absL sq g a.h u v n * invR sq g a.h u v n

/-- `get_dabsA_dze`, lines 113-129. -/
def getdAbsAze (sq : K → K) (g : K) (q : Q K) (a : Aux K) (n : P2 K) : M3 K :=
  let u := q.qx / a.h
  let v := q.qy / a.h
  dRze sq g a.h u v n * absL sq g a.h u v n * invR sq g a.h u v n + matR sq g a.h u v n * dabsLze sq g a.h u v n * invR sq g a.h u v n +
    matR sq g a.h u v n * absL sq g a.h u v n * dinvRze sq g a.h u v n

/-- `get_dabsA_dqx`, lines 131-147. -/
def getdAbsAqx (sq : K → K) (g : K) (q : Q K) (a : Aux K) (n : P2 K) : M3 K :=
  let u := q.qx / a.h
  let v := q.qy / a.h
  dRqx a.h * absL sq g a.h u v n * invR sq g a.h u v n + matR sq g a.h u v n * dabsLqx sq g a.h u v n * invR sq g a.h u v n +
    matR sq g a.h u v n * absL sq g a.h u v n * dinvRqx sq g a.h n

/-- `get_dabsA_dqy`, lines 149-165. -/
def getdAbsAqy (sq : K → K) (g : K) (q : Q K) (a : Aux K) (n : P2 K) : M3 K :=
  let u := q.qx / a.h
  let v := q.qy / a.h
  dRqy a.h * absL sq g a.h u v n * invR sq g a.h u v n + matR sq g a.h u v n * dabsLqy sq g a.h u v n * invR sq g a.h u v n +
    matR sq g a.h u v n * absL sq g a.h u v n * dinvRqy sq g a.h n

/-- `get_Aplus`, lines 167-181. -/
def getAplus (sq : K → K) (g : K) (q : Q K) (a : Aux K) (n : P2 K) : M3 K :=
  let u := q.qx / a.h
  let v := q.qy / a.h
  ((1 / 2 : K) • matR sq g a.h u v n) * (matL sq g a.h u v n + absL sq g a.h u v n) * invR sq g a.h u v n

/-- `get_dAplus_dze`, lines 183-200. -/
def getdAplusZe (sq : K → K) (g : K) (q : Q K) (a : Aux K) (n : P2 K) : M3 K :=
  let u := q.qx / a.h
  let v := q.qy / a.h
  (1 / 2 : K) • (dRze sq g a.h u v n * (matL sq g a.h u v n + absL sq g a.h u v n) * invR sq g a.h u v n +
    matR sq g a.h u v n * (dLze sq g a.h u v n + dabsLze sq g a.h u v n) * invR sq g a.h u v n +
    matR sq g a.h u v n * (matL sq g a.h u v n + absL sq g a.h u v n) * dinvRze sq g a.h u v n)

/-- `get_dAplus_dqx`, lines 202-219. -/
def getdAplusQx (sq : K → K) (g : K) (q : Q K) (a : Aux K) (n : P2 K) : M3 K :=
  let u := q.qx / a.h
  let v := q.qy / a.h
  (1 / 2 : K) • (dRqx a.h * (matL sq g a.h u v n + absL sq g a.h u v n) * invR sq g a.h u v n +
    matR sq g a.h u v n * (dLqx a.h n + dabsLqx sq g a.h u v n) * invR sq g a.h u v n +
    matR sq g a.h u v n * (matL sq g a.h u v n + absL sq g a.h u v n) * dinvRqx sq g a.h n)

/-- `get_dAplus_dqy`, lines 221-238. -/
def getdAplusQy (sq : K → K) (g : K) (q : Q K) (a : Aux K) (n : P2 K) : M3 K :=
  let u := q.qx / a.h
  let v := q.qy / a.h
  (1 / 2 : K) • (dRqy a.h * (matL sq g a.h u v n + absL sq g a.h u v n) * invR sq g a.h u v n +
    matR sq g a.h u v n * (dLqy a.h n + dabsLqy sq g a.h u v n) * invR sq g a.h u v n +
    matR sq g a.h u v n * (matL sq g a.h u v n + absL sq g a.h u v n) * dinvRqy sq g a.h n)

/-- `get_Aminus`, lines 240-254. -/
def getAminus (sq : K → K) (g : K) (q : Q K) (a : Aux K) (n : P2 K) : M3 K :=
  let u := q.qx / a.h
  let v := q.qy / a.h
  ((1 / 2 : K) • matR sq g a.h u v n) * (matL sq g a.h u v n - absL sq g a.h u v n) * invR sq g a.h u v n

/-- `get_dAminus_dze`, lines 256-273. -/
def getdAminusZe (sq : K → K) (g : K) (q : Q K) (a : Aux K) (n : P2 K) : M3 K :=
  let u := q.qx / a.h
  let v := q.qy / a.h
  (1 / 2 : K) • (dRze sq g a.h u v n * (matL sq g a.h u v n - absL sq g a.h u v n) * invR sq g a.h u v n +
    matR sq g a.h u v n * (dLze sq g a.h u v n - dabsLze sq g a.h u v n) * invR sq g a.h u v n +
    matR sq g a.h u v n * (matL sq g a.h u v n - absL sq g a.h u v n) * dinvRze sq g a.h u v n)

/-- `get_dAminus_dqx`, lines 275-292. -/
def getdAminusQx (sq : K → K) (g : K) (q : Q K) (a : Aux K) (n : P2 K) : M3 K :=
  let u := q.qx / a.h
  let v := q.qy / a.h
  (1 / 2 : K) • (dRqx a.h * (matL sq g a.h u v n - absL sq g a.h u v n) * invR sq g a.h u v n +
    matR sq g a.h u v n * (dLqx a.h n - dabsLqx sq g a.h u v n) * invR sq g a.h u v n +
    matR sq g a.h u v n * (matL sq g a.h u v n - absL sq g a.h u v n) * dinvRqx sq g a.h n)

/-- `get_dAminus_dqy`, lines 294-311. -/
def getdAminusQy (sq : K → K) (g : K) (q : Q K) (a : Aux K) (n : P2 K) : M3 K :=
  let u := q.qx / a.h
  let v := q.qy / a.h
  (1 / 2 : K) • (dRqy a.h * (matL sq g a.h u v n - absL sq g a.h u v n) * invR sq g a.h u v n +
    matR sq g a.h u v n * (dLqy a.h n - dabsLqy sq g a.h u v n) * invR sq g a.h u v n +
    matR sq g a.h u v n * (matL sq g a.h u v n - absL sq g a.h u v n) * dinvRqy sq g a.h n)

/-! ### `swe_stab_param_LF.hpp` -/

/-- `get_tau_LF`, lines 7-42. -/
def tauLF (sq : K → K) (g : K) (q : Q K) (a : Aux K) (n : P2 K) : M3 K :=
  let un := vn (q.qx / a.h) (q.qy / a.h) n
  (cel sq g a.h + |un|) • (1 : M3 K)

/-- `get_dtau_dze_LF`, lines 44-62. -/
def dtauZe (sq : K → K) (g : K) (q : Q K) (a : Aux K) (n : P2 K) : M3 K :=
  let un := vn (q.qx / a.h) (q.qy / a.h) n
  (dcel sq g a.h + -un / a.h * sgn un) • (1 : M3 K)

/-- `get_dtau_dqx_LF`, lines 64-81. -/
def dtauQx (q : Q K) (a : Aux K) (n : P2 K) : M3 K :=
  let un := vn (q.qx / a.h) (q.qy / a.h) n
  (n.x / a.h * sgn un) • (1 : M3 K)

/-- `get_dtau_dqy_LF`, lines 83-100. -/
def dtauQy (q : Q K) (a : Aux K) (n : P2 K) : M3 K :=
  let un := vn (q.qx / a.h) (q.qy / a.h) n
  (n.y / a.h * sgn un) • (1 : M3 K)

end Verif.Swe
