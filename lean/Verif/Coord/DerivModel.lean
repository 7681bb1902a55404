import Verif.Coord.Model

/-!
# Gradients, Hessians and derivatives of coordinate transformations

Models `/repo/src/coord.h:454-622` (data types) and `/repo/src/coord.cpp:93-263, 607-919` (`toPosDeriv`, `toGrad`,
`toHess`).  Number model (E), as in `Model.lean`.  The C++ `toPosDeriv` returns the transformed position and fills
`*deriv` and `*deriv2` when these are not null; here the three outputs are three functions (the position part is the
function of `Model.lean` unless noted).  Division by zero at the coordinate singularities yields inf/NaN in the code
and 0 in Lean; every theorem about these functions excludes the singular points.
-/

namespace Verif.Coord

open Real

/-- coord.h:457-459 -/
@[ext] structure GradCar where (dx dy dz : ℝ)
/-- coord.h:495-497 -/
@[ext] structure HessCar where (dx2 dy2 dz2 dxdy dydz dxdz : ℝ)
/-- coord.h:464-466 -/
@[ext] structure GradCyl where (dR dz dphi : ℝ)
/-- coord.h:501-503 -/
@[ext] structure HessCyl where (dR2 dz2 dphi2 dRdz dzdphi dRdphi : ℝ)
/-- coord.h:470-472 -/
@[ext] structure GradSph where (dr dtheta dphi : ℝ)
/-- coord.h:507-509 -/
@[ext] structure HessSph where (dr2 dtheta2 dphi2 drdtheta dthetadphi drdphi : ℝ)
/-- coord.h:476-478 -/
@[ext] structure GradProlSph where (dlambda dnu dphi : ℝ)
/-- coord.h:513-515 -/
@[ext] structure HessProlSph where (dlambda2 dnu2 dlambdadnu : ℝ)
/-- coord.h:482-484 -/
@[ext] structure GradAxi where (drho dnu dphi : ℝ)
/-- coord.h:519-521 -/
@[ext] structure HessAxi where (drho2 dnu2 dphi2 drhodnu drhodphi dnudphi : ℝ)
/-- coord.h:554-556: derivatives of the Cyl coordinates over the Car coordinates -/
@[ext] structure DerivCarCyl where
  (dRdx dRdy dphidx dphidy : ℝ)
/-- coord.h:598-600: derivatives of the Cyl coordinates over the Car coordinates -/
@[ext] structure Deriv2CarCyl where
  (d2Rdx2 d2Rdxdy d2Rdy2 d2phidx2 d2phidxdy d2phidy2 : ℝ)
/-- coord.h:557-559: derivatives of the Sph coordinates over the Car coordinates -/
@[ext] structure DerivCarSph where
  (drdx drdy drdz dthetadx dthetady dthetadz dphidx dphidy : ℝ)
/-- coord.h:604-608: derivatives of the Sph coordinates over the Car coordinates -/
@[ext] structure Deriv2CarSph where
  (d2rdx2 d2rdxdy d2rdxdz d2rdy2 d2rdydz d2rdz2 d2thetadx2 d2thetadxdy d2thetadxdz d2thetady2 d2thetadydz d2thetadz2 d2phidx2 d2phidxdy d2phidy2 : ℝ)
/-- coord.h:560-562: derivatives of the Car coordinates over the Cyl coordinates -/
@[ext] structure DerivCylCar where
  (dxdR dxdphi dydR dydphi : ℝ)
/-- coord.h:590-592: derivatives of the Car coordinates over the Cyl coordinates -/
@[ext] structure Deriv2CylCar where
  (d2xdRdphi d2xdphi2 d2ydRdphi d2ydphi2 : ℝ)
/-- coord.h:563-565: derivatives of the Sph coordinates over the Cyl coordinates -/
@[ext] structure DerivCylSph where
  (drdR drdz dthetadR dthetadz : ℝ)
/-- coord.h:609-611: derivatives of the Sph coordinates over the Cyl coordinates -/
@[ext] structure Deriv2CylSph where
  (d2rdR2 d2rdRdz d2rdz2 d2thetadR2 d2thetadRdz d2thetadz2 : ℝ)
/-- coord.h:566-568: derivatives of the Car coordinates over the Sph coordinates -/
@[ext] structure DerivSphCar where
  (dxdr dxdtheta dxdphi dydr dydtheta dydphi dzdr dzdtheta : ℝ)
/-- coord.h:593-597: derivatives of the Car coordinates over the Sph coordinates -/
@[ext] structure Deriv2SphCar where
  (d2xdrdtheta d2xdrdphi d2xdtheta2 d2xdthetadphi d2xdphi2 d2ydrdtheta d2ydrdphi d2ydtheta2 d2ydthetadphi d2ydphi2 d2zdrdtheta d2zdtheta2 : ℝ)
/-- coord.h:569-571: derivatives of the Cyl coordinates over the Sph coordinates -/
@[ext] structure DerivSphCyl where
  (dRdr dRdtheta dzdr dzdtheta : ℝ)
/-- coord.h:601-603: derivatives of the Cyl coordinates over the Sph coordinates -/
@[ext] structure Deriv2SphCyl where
  (d2Rdrdtheta d2Rdtheta2 d2zdrdtheta d2zdtheta2 : ℝ)
/-- coord.h:572-574: derivatives of the ProlSph coordinates over the Cyl coordinates -/
@[ext] structure DerivCylProlSph where
  (dlambdadR dlambdadz dnudR dnudz : ℝ)
/-- coord.h:612-614: derivatives of the ProlSph coordinates over the Cyl coordinates -/
@[ext] structure Deriv2CylProlSph where
  (d2lambdadR2 d2lambdadRdz d2lambdadz2 d2nudR2 d2nudRdz d2nudz2 : ℝ)
/-- coord.h:575-577: derivatives of the Cyl coordinates over the ProlSph coordinates -/
@[ext] structure DerivProlSphCyl where
  (dRdlambda dRdnu dzdlambda dzdnu : ℝ)
/-- coord.h:615-617: derivatives of the Cyl coordinates over the ProlSph coordinates -/
@[ext] structure Deriv2ProlSphCyl where
  (d2Rdlambda2 d2Rdlambdadnu d2Rdnu2 d2zdlambda2 d2zdlambdadnu d2zdnu2 : ℝ)
/-- coord.h:578-580: derivatives of the Axi coordinates over the Cyl coordinates -/
@[ext] structure DerivCylAxi where
  (drhodR drhodz dnudR dnudz : ℝ)
/-- coord.h:618-620: derivatives of the Axi coordinates over the Cyl coordinates -/
@[ext] structure Deriv2CylAxi where
  (d2rhodR2 d2rhodRdz d2rhodz2 d2nudR2 d2nudRdz d2nudz2 : ℝ)
/-- coord.h:581-583: derivatives of the Cyl coordinates over the Axi coordinates -/
@[ext] structure DerivAxiCyl where
  (dRdrho dRdnu dzdrho dzdnu : ℝ)
/-- coord.h:621-623: derivatives of the Cyl coordinates over the Axi coordinates -/
@[ext] structure Deriv2AxiCyl where
  (d2Rdrho2 d2Rdrhodnu d2Rdnu2 d2zdrho2 d2zdrhodnu d2zdnu2 : ℝ)

/-! ## gradients -/

/-- coord.cpp:607-614 -/
def toGradCylCar (src : GradCyl) (deriv : DerivCarCyl) : GradCar where
  dx := src.dR * deriv.dRdx + src.dphi * deriv.dphidx
  dy := src.dR * deriv.dRdy + src.dphi * deriv.dphidy
  dz := src.dz

/-- coord.cpp:616-623 -/
def toGradSphCar (src : GradSph) (deriv : DerivCarSph) : GradCar where
  dx := src.dr * deriv.drdx + src.dtheta * deriv.dthetadx + src.dphi * deriv.dphidx
  dy := src.dr * deriv.drdy + src.dtheta * deriv.dthetady + src.dphi * deriv.dphidy
  dz := src.dr * deriv.drdz + src.dtheta * deriv.dthetadz

/-- coord.cpp:625-632 -/
def toGradCarCyl (src : GradCar) (deriv : DerivCylCar) : GradCyl where
  dR := src.dx * deriv.dxdR + src.dy * deriv.dydR
  dz := src.dz
  dphi := src.dx * deriv.dxdphi + src.dy * deriv.dydphi

/-- coord.cpp:634-641 -/
def toGradSphCyl (src : GradSph) (deriv : DerivCylSph) : GradCyl where
  dR := src.dr * deriv.drdR + src.dtheta * deriv.dthetadR
  dz := src.dr * deriv.drdz + src.dtheta * deriv.dthetadz
  dphi := src.dphi

/-- coord.cpp:643-650 -/
def toGradCarSph (src : GradCar) (deriv : DerivSphCar) : GradSph where
  dr := src.dx * deriv.dxdr + src.dy * deriv.dydr + src.dz * deriv.dzdr
  dtheta := src.dx * deriv.dxdtheta + src.dy * deriv.dydtheta + src.dz * deriv.dzdtheta
  dphi := src.dx * deriv.dxdphi + src.dy * deriv.dydphi

/-- coord.cpp:652-659 -/
def toGradCylSph (src : GradCyl) (deriv : DerivSphCyl) : GradSph where
  dr := src.dR * deriv.dRdr + src.dz * deriv.dzdr
  dtheta := src.dR * deriv.dRdtheta + src.dz * deriv.dzdtheta
  dphi := src.dphi

/-- coord.cpp:661-668 -/
def toGradProlSphCyl (src : GradProlSph) (deriv : DerivCylProlSph) : GradCyl where
  dR := src.dlambda * deriv.dlambdadR + src.dnu * deriv.dnudR
  dz := src.dlambda * deriv.dlambdadz + src.dnu * deriv.dnudz
  dphi := src.dphi

/-- coord.cpp:670-677 -/
def toGradCylProlSph (src : GradCyl) (deriv : DerivProlSphCyl) : GradProlSph where
  dlambda := src.dR * deriv.dRdlambda + src.dz * deriv.dzdlambda
  dnu := src.dR * deriv.dRdnu + src.dz * deriv.dzdnu
  dphi := src.dphi

/-- coord.cpp:679-686 -/
def toGradAxiCyl (src : GradAxi) (deriv : DerivCylAxi) : GradCyl where
  dR := src.drho * deriv.drhodR + src.dnu * deriv.dnudR
  dz := src.drho * deriv.drhodz + src.dnu * deriv.dnudz
  dphi := src.dphi

/-- coord.cpp:688-695 -/
def toGradCylAxi (src : GradCyl) (deriv : DerivAxiCyl) : GradAxi where
  drho := src.dR * deriv.dRdrho + src.dz * deriv.dzdrho
  dnu := src.dR * deriv.dRdnu + src.dz * deriv.dzdnu
  dphi := src.dphi

/-- coord.cpp:699-719 -/
def toHessCylCar (srcGrad : GradCyl) (srcHess : HessCyl)
    (deriv : DerivCarCyl) (deriv2 : Deriv2CarCyl) : HessCar where
  dx2 := (srcHess.dR2 * deriv.dRdx + srcHess.dRdphi * deriv.dphidx) * deriv.dRdx + (srcHess.dRdphi * deriv.dRdx + srcHess.dphi2 * deriv.dphidx) * deriv.dphidx +
      srcGrad.dR * deriv2.d2Rdx2 + srcGrad.dphi * deriv2.d2phidx2
  dxdy := (srcHess.dR2 * deriv.dRdy + srcHess.dRdphi * deriv.dphidy) * deriv.dRdx + (srcHess.dRdphi * deriv.dRdy + srcHess.dphi2 * deriv.dphidy) * deriv.dphidx +
      srcGrad.dR * deriv2.d2Rdxdy + srcGrad.dphi * deriv2.d2phidxdy
  dy2 := (srcHess.dR2 * deriv.dRdy + srcHess.dRdphi * deriv.dphidy) * deriv.dRdy + (srcHess.dRdphi * deriv.dRdy + srcHess.dphi2 * deriv.dphidy) * deriv.dphidy +
      srcGrad.dR * deriv2.d2Rdy2 + srcGrad.dphi * deriv2.d2phidy2
  dxdz := srcHess.dRdz * deriv.dRdx + srcHess.dzdphi * deriv.dphidx
  dydz := srcHess.dRdz * deriv.dRdy + srcHess.dzdphi * deriv.dphidy
  dz2 := srcHess.dz2

/-- coord.cpp:721-755 -/
def toHessSphCar (srcGrad : GradSph) (srcHess : HessSph)
    (deriv : DerivCarSph) (deriv2 : Deriv2CarSph) : HessCar where
  dx2 := (srcHess.dr2 * deriv.drdx + srcHess.drdtheta * deriv.dthetadx + srcHess.drdphi * deriv.dphidx) * deriv.drdx + (srcHess.drdtheta * deriv.drdx + srcHess.dtheta2 * deriv.dthetadx + srcHess.dthetadphi * deriv.dphidx) * deriv.dthetadx + (srcHess.drdphi * deriv.drdx + srcHess.dthetadphi * deriv.dthetadx + srcHess.dphi2 * deriv.dphidx) * deriv.dphidx +
      srcGrad.dr * deriv2.d2rdx2 + srcGrad.dtheta * deriv2.d2thetadx2 + srcGrad.dphi * deriv2.d2phidx2
  dxdy := (srcHess.dr2 * deriv.drdy + srcHess.drdtheta * deriv.dthetady + srcHess.drdphi * deriv.dphidy) * deriv.drdx + (srcHess.drdtheta * deriv.drdy + srcHess.dtheta2 * deriv.dthetady + srcHess.dthetadphi * deriv.dphidy) * deriv.dthetadx + (srcHess.drdphi * deriv.drdy + srcHess.dthetadphi * deriv.dthetady + srcHess.dphi2 * deriv.dphidy) * deriv.dphidx +
      srcGrad.dr * deriv2.d2rdxdy + srcGrad.dtheta * deriv2.d2thetadxdy + srcGrad.dphi * deriv2.d2phidxdy
  dxdz := (srcHess.dr2 * deriv.drdz + srcHess.drdtheta * deriv.dthetadz) * deriv.drdx + (srcHess.drdtheta * deriv.drdz + srcHess.dtheta2 * deriv.dthetadz) * deriv.dthetadx + (srcHess.drdphi * deriv.drdz + srcHess.dthetadphi * deriv.dthetadz) * deriv.dphidx +
      srcGrad.dr * deriv2.d2rdxdz + srcGrad.dtheta * deriv2.d2thetadxdz
  dy2 := (srcHess.dr2 * deriv.drdy + srcHess.drdtheta * deriv.dthetady + srcHess.drdphi * deriv.dphidy) * deriv.drdy + (srcHess.drdtheta * deriv.drdy + srcHess.dtheta2 * deriv.dthetady + srcHess.dthetadphi * deriv.dphidy) * deriv.dthetady + (srcHess.drdphi * deriv.drdy + srcHess.dthetadphi * deriv.dthetady + srcHess.dphi2 * deriv.dphidy) * deriv.dphidy +
      srcGrad.dr * deriv2.d2rdy2 + srcGrad.dtheta * deriv2.d2thetady2 + srcGrad.dphi * deriv2.d2phidy2
  dydz := (srcHess.dr2 * deriv.drdz + srcHess.drdtheta * deriv.dthetadz) * deriv.drdy + (srcHess.drdtheta * deriv.drdz + srcHess.dtheta2 * deriv.dthetadz) * deriv.dthetady + (srcHess.drdphi * deriv.drdz + srcHess.dthetadphi * deriv.dthetadz) * deriv.dphidy +
      srcGrad.dr * deriv2.d2rdydz + srcGrad.dtheta * deriv2.d2thetadydz
  dz2 := (srcHess.dr2 * deriv.drdz + srcHess.drdtheta * deriv.dthetadz) * deriv.drdz + (srcHess.drdtheta * deriv.drdz + srcHess.dtheta2 * deriv.dthetadz) * deriv.dthetadz +
      srcGrad.dr * deriv2.d2rdz2 + srcGrad.dtheta * deriv2.d2thetadz2

/-- coord.cpp:757-776 -/
def toHessCarCyl (srcGrad : GradCar) (srcHess : HessCar)
    (deriv : DerivCylCar) (deriv2 : Deriv2CylCar) : HessCyl where
  dR2 := (srcHess.dx2 * deriv.dxdR + srcHess.dxdy * deriv.dydR) * deriv.dxdR + (srcHess.dxdy * deriv.dxdR + srcHess.dy2 * deriv.dydR) * deriv.dydR
  dRdz := srcHess.dxdz * deriv.dxdR + srcHess.dydz * deriv.dydR
  dRdphi := (srcHess.dx2 * deriv.dxdphi + srcHess.dxdy * deriv.dydphi) * deriv.dxdR + (srcHess.dxdy * deriv.dxdphi + srcHess.dy2 * deriv.dydphi) * deriv.dydR +
      srcGrad.dx * deriv2.d2xdRdphi + srcGrad.dy * deriv2.d2ydRdphi
  dz2 := srcHess.dz2
  dzdphi := (srcHess.dxdz * deriv.dxdphi + srcHess.dydz * deriv.dydphi)
  dphi2 := (srcHess.dx2 * deriv.dxdphi + srcHess.dxdy * deriv.dydphi) * deriv.dxdphi + (srcHess.dxdy * deriv.dxdphi + srcHess.dy2 * deriv.dydphi) * deriv.dydphi +
      srcGrad.dx * deriv2.d2xdphi2 + srcGrad.dy * deriv2.d2ydphi2

/-- coord.cpp:778-798 -/
def toHessSphCyl (srcGrad : GradSph) (srcHess : HessSph)
    (deriv : DerivCylSph) (deriv2 : Deriv2CylSph) : HessCyl where
  dR2 := (srcHess.dr2 * deriv.drdR + srcHess.drdtheta * deriv.dthetadR) * deriv.drdR + (srcHess.drdtheta * deriv.drdR + srcHess.dtheta2 * deriv.dthetadR) * deriv.dthetadR +
      srcGrad.dr * deriv2.d2rdR2 + srcGrad.dtheta * deriv2.d2thetadR2
  dRdz := (srcHess.dr2 * deriv.drdz + srcHess.drdtheta * deriv.dthetadz) * deriv.drdR + (srcHess.drdtheta * deriv.drdz + srcHess.dtheta2 * deriv.dthetadz) * deriv.dthetadR +
      srcGrad.dr * deriv2.d2rdRdz + srcGrad.dtheta * deriv2.d2thetadRdz
  dz2 := (srcHess.dr2 * deriv.drdz + srcHess.drdtheta * deriv.dthetadz) * deriv.drdz + (srcHess.drdtheta * deriv.drdz + srcHess.dtheta2 * deriv.dthetadz) * deriv.dthetadz +
      srcGrad.dr * deriv2.d2rdz2 + srcGrad.dtheta * deriv2.d2thetadz2
  dRdphi := srcHess.drdphi * deriv.drdR + srcHess.dthetadphi * deriv.dthetadR
  dzdphi := srcHess.drdphi * deriv.drdz + srcHess.dthetadphi * deriv.dthetadz
  dphi2 := srcHess.dphi2

/-- coord.cpp:800-833 -/
def toHessCarSph (srcGrad : GradCar) (srcHess : HessCar)
    (deriv : DerivSphCar) (deriv2 : Deriv2SphCar) : HessSph where
  dr2 := (srcHess.dx2 * deriv.dxdr + srcHess.dxdy * deriv.dydr + srcHess.dxdz * deriv.dzdr) * deriv.dxdr + (srcHess.dxdy * deriv.dxdr + srcHess.dy2 * deriv.dydr + srcHess.dydz * deriv.dzdr) * deriv.dydr + (srcHess.dxdz * deriv.dxdr + srcHess.dydz * deriv.dydr + srcHess.dz2 * deriv.dzdr) * deriv.dzdr
  drdtheta := (srcHess.dx2 * deriv.dxdtheta + srcHess.dxdy * deriv.dydtheta + srcHess.dxdz * deriv.dzdtheta) * deriv.dxdr + (srcHess.dxdy * deriv.dxdtheta + srcHess.dy2 * deriv.dydtheta + srcHess.dydz * deriv.dzdtheta) * deriv.dydr + (srcHess.dxdz * deriv.dxdtheta + srcHess.dydz * deriv.dydtheta + srcHess.dz2 * deriv.dzdtheta) * deriv.dzdr +
      srcGrad.dx * deriv2.d2xdrdtheta + srcGrad.dy * deriv2.d2ydrdtheta + srcGrad.dz * deriv2.d2zdrdtheta
  drdphi := (srcHess.dx2 * deriv.dxdphi + srcHess.dxdy * deriv.dydphi) * deriv.dxdr + (srcHess.dxdy * deriv.dxdphi + srcHess.dy2 * deriv.dydphi) * deriv.dydr + (srcHess.dxdz * deriv.dxdphi + srcHess.dydz * deriv.dydphi) * deriv.dzdr +
      srcGrad.dx * deriv2.d2xdrdphi + srcGrad.dy * deriv2.d2ydrdphi
  dtheta2 := (srcHess.dx2 * deriv.dxdtheta + srcHess.dxdy * deriv.dydtheta + srcHess.dxdz * deriv.dzdtheta) * deriv.dxdtheta + (srcHess.dxdy * deriv.dxdtheta + srcHess.dy2 * deriv.dydtheta + srcHess.dydz * deriv.dzdtheta) * deriv.dydtheta + (srcHess.dxdz * deriv.dxdtheta + srcHess.dydz * deriv.dydtheta + srcHess.dz2 * deriv.dzdtheta) * deriv.dzdtheta +
      srcGrad.dx * deriv2.d2xdtheta2 + srcGrad.dy * deriv2.d2ydtheta2 + srcGrad.dz * deriv2.d2zdtheta2
  dthetadphi := (srcHess.dx2 * deriv.dxdphi + srcHess.dxdy * deriv.dydphi) * deriv.dxdtheta + (srcHess.dxdy * deriv.dxdphi + srcHess.dy2 * deriv.dydphi) * deriv.dydtheta + (srcHess.dxdz * deriv.dxdphi + srcHess.dydz * deriv.dydphi) * deriv.dzdtheta +
      srcGrad.dx * deriv2.d2xdthetadphi + srcGrad.dy * deriv2.d2ydthetadphi
  dphi2 := (srcHess.dx2 * deriv.dxdphi + srcHess.dxdy * deriv.dydphi) * deriv.dxdphi + (srcHess.dxdy * deriv.dxdphi + srcHess.dy2 * deriv.dydphi) * deriv.dydphi +
      srcGrad.dx * deriv2.d2xdphi2 + srcGrad.dy * deriv2.d2ydphi2

/-- coord.cpp:835-854 -/
def toHessCylSph (srcGrad : GradCyl) (srcHess : HessCyl)
    (deriv : DerivSphCyl) (deriv2 : Deriv2SphCyl) : HessSph where
  dr2 := (srcHess.dR2 * deriv.dRdr + srcHess.dRdz * deriv.dzdr) * deriv.dRdr + (srcHess.dRdz * deriv.dRdr + srcHess.dz2 * deriv.dzdr) * deriv.dzdr
  drdtheta := (srcHess.dR2 * deriv.dRdtheta + srcHess.dRdz * deriv.dzdtheta) * deriv.dRdr + (srcHess.dRdz * deriv.dRdtheta + srcHess.dz2 * deriv.dzdtheta) * deriv.dzdr +
      srcGrad.dR * deriv2.d2Rdrdtheta + srcGrad.dz * deriv2.d2zdrdtheta
  dtheta2 := (srcHess.dR2 * deriv.dRdtheta + srcHess.dRdz * deriv.dzdtheta) * deriv.dRdtheta + (srcHess.dRdz * deriv.dRdtheta + srcHess.dz2 * deriv.dzdtheta) * deriv.dzdtheta +
      srcGrad.dR * deriv2.d2Rdtheta2 + srcGrad.dz * deriv2.d2zdtheta2
  drdphi := srcHess.dRdphi * deriv.dRdr + srcHess.dzdphi * deriv.dzdr
  dthetadphi := srcHess.dRdphi * deriv.dRdtheta + srcHess.dzdphi * deriv.dzdtheta
  dphi2 := srcHess.dphi2

/-- coord.cpp:857-875 -/
def toHessProlSphCyl (srcGrad : GradProlSph) (srcHess : HessProlSph)
    (deriv : DerivCylProlSph) (deriv2 : Deriv2CylProlSph) : HessCyl where
  dR2 := (srcHess.dlambda2 * deriv.dlambdadR + srcHess.dlambdadnu * deriv.dnudR) * deriv.dlambdadR + (srcHess.dlambdadnu * deriv.dlambdadR + srcHess.dnu2 * deriv.dnudR) * deriv.dnudR +
      srcGrad.dlambda * deriv2.d2lambdadR2 + srcGrad.dnu * deriv2.d2nudR2
  dRdz := (srcHess.dlambda2 * deriv.dlambdadz + srcHess.dlambdadnu * deriv.dnudz) * deriv.dlambdadR + (srcHess.dlambdadnu * deriv.dlambdadz + srcHess.dnu2 * deriv.dnudz) * deriv.dnudR +
      srcGrad.dlambda * deriv2.d2lambdadRdz + srcGrad.dnu * deriv2.d2nudRdz
  dz2 := (srcHess.dlambda2 * deriv.dlambdadz + srcHess.dlambdadnu * deriv.dnudz) * deriv.dlambdadz + (srcHess.dlambdadnu * deriv.dlambdadz + srcHess.dnu2 * deriv.dnudz) * deriv.dnudz +
      srcGrad.dlambda * deriv2.d2lambdadz2 + srcGrad.dnu * deriv2.d2nudz2
  dRdphi := 0
  dzdphi := 0
  dphi2 := 0

/-- coord.cpp:877-897 -/
def toHessAxiCyl (srcGrad : GradAxi) (srcHess : HessAxi)
    (deriv : DerivCylAxi) (deriv2 : Deriv2CylAxi) : HessCyl where
  dR2 := (srcHess.drho2 * deriv.drhodR + srcHess.drhodnu * deriv.dnudR) * deriv.drhodR + (srcHess.drhodnu * deriv.drhodR + srcHess.dnu2 * deriv.dnudR) * deriv.dnudR +
      srcGrad.drho * deriv2.d2rhodR2 + srcGrad.dnu * deriv2.d2nudR2
  dRdz := (srcHess.drho2 * deriv.drhodz + srcHess.drhodnu * deriv.dnudz) * deriv.drhodR + (srcHess.drhodnu * deriv.drhodz + srcHess.dnu2 * deriv.dnudz) * deriv.dnudR +
      srcGrad.drho * deriv2.d2rhodRdz+ srcGrad.dnu * deriv2.d2nudRdz
  dz2 := (srcHess.drho2 * deriv.drhodz + srcHess.drhodnu * deriv.dnudz) * deriv.drhodz + (srcHess.drhodnu * deriv.drhodz + srcHess.dnu2 * deriv.dnudz) * deriv.dnudz +
      srcGrad.drho * deriv2.d2rhodz2 + srcGrad.dnu * deriv2.d2nudz2
  dRdphi := srcHess.drhodphi * deriv.drhodR + srcHess.dnudphi * deriv.dnudR
  dzdphi := srcHess.drhodphi * deriv.drhodz + srcHess.dnudphi * deriv.dnudz
  dphi2 := srcHess.dphi2

/-- coord.cpp:899-919 -/
def toHessCylAxi (srcGrad : GradCyl) (srcHess : HessCyl)
    (deriv : DerivAxiCyl) (deriv2 : Deriv2AxiCyl) : HessAxi where
  drho2 := (srcHess.dR2 * deriv.dRdrho + srcHess.dRdz * deriv.dzdrho) * deriv.dRdrho + (srcHess.dRdz * deriv.dRdrho + srcHess.dz2 * deriv.dzdrho) * deriv.dzdrho +
      srcGrad.dR * deriv2.d2Rdrho2 + srcGrad.dz * deriv2.d2zdrho2
  drhodnu := (srcHess.dR2 * deriv.dRdnu + srcHess.dRdz * deriv.dzdnu) * deriv.dRdrho + (srcHess.dRdz * deriv.dRdnu + srcHess.dz2 * deriv.dzdnu) * deriv.dzdrho +
      srcGrad.dR * deriv2.d2Rdrhodnu + srcGrad.dz * deriv2.d2zdrhodnu
  dnu2 := (srcHess.dR2 * deriv.dRdnu + srcHess.dRdz * deriv.dzdnu) * deriv.dRdnu + (srcHess.dRdz * deriv.dRdnu + srcHess.dz2 * deriv.dzdnu) * deriv.dzdnu +
      srcGrad.dR * deriv2.d2Rdnu2 + srcGrad.dz * deriv2.d2zdnu2
  drhodphi := srcHess.dRdphi * deriv.dRdrho + srcHess.dzdphi * deriv.dzdrho
  dnudphi := srcHess.dRdphi * deriv.dRdnu + srcHess.dzdphi * deriv.dzdnu
  dphi2 := srcHess.dphi2


/-! ## derivatives of the coordinate transformations -/

open Classical in
/-- coord.cpp:93-123, first derivatives; at R=0 placeholders are filled in -/
noncomputable def derivCarCyl (p : PosCar) : DerivCarCyl :=
  let R2 := p.x ^ 2 + p.y ^ 2
  let R := √R2
  if R = 0 then ⟨1, 1, 1, 1⟩ else
  let cosphi := p.x / R
  let sinphi := p.y / R
  { dRdx := cosphi
    dRdy := sinphi
    dphidx := -sinphi / R
    dphidy := cosphi / R }

open Classical in
/-- coord.cpp:93-123, second derivatives; at R=0 placeholders are filled in -/
noncomputable def deriv2CarCyl (p : PosCar) : Deriv2CarCyl :=
  let R2 := p.x ^ 2 + p.y ^ 2
  let R := √R2
  if R = 0 then ⟨1, 1, 1, 1, 1, 1⟩ else
  let cosphi := p.x / R
  let sinphi := p.y / R
  { d2Rdx2 := sinphi ^ 2 / R
    d2Rdy2 := cosphi ^ 2 / R
    d2Rdxdy := -sinphi * cosphi / R
    d2phidx2 := 2 * sinphi * cosphi / R2
    d2phidy2 := -(2 * sinphi * cosphi / R2)
    d2phidxdy := (sinphi ^ 2 - cosphi ^ 2) / R2 }

/-- coord.cpp:125-164, first derivatives -/
noncomputable def derivCarSph (p : PosCar) : DerivCarSph :=
  let x2 := p.x ^ 2
  let y2 := p.y ^ 2
  let z2 := p.z ^ 2
  let R2 := x2 + y2
  let R := √R2
  let r2 := R2 + z2
  let r := √r2
  let invr := 1 / r
  let temp := p.z / (R * r2)
  { drdx := p.x * invr
    drdy := p.y * invr
    drdz := p.z * invr
    dthetadx := p.x * temp
    dthetady := p.y * temp
    dthetadz := -R / r2
    dphidx := -p.y / R2
    dphidy := p.x / R2 }

/-- coord.cpp:125-164, second derivatives -/
noncomputable def deriv2CarSph (p : PosCar) : Deriv2CarSph :=
  let x2 := p.x ^ 2
  let y2 := p.y ^ 2
  let z2 := p.z ^ 2
  let R2 := x2 + y2
  let R := √R2
  let r2 := R2 + z2
  let r := √r2
  let invr := 1 / r
  let invr3 := invr / r2
  let invr4 := 1 / (r2 * r2)
  let temp := p.z * invr4 / (R * R2)
  let temp2 := (R2 - z2) * invr4 / R
  { d2rdx2 := (r2 - x2) * invr3
    d2rdy2 := (r2 - y2) * invr3
    d2rdz2 := R2 * invr3
    d2rdxdy := -p.x * p.y * invr3
    d2rdxdz := -p.x * p.z * invr3
    d2rdydz := -p.y * p.z * invr3
    d2thetadx2 := (r2 * y2 - 2 * R2 * x2) * temp
    d2thetady2 := (r2 * x2 - 2 * R2 * y2) * temp
    d2thetadz2 := 2 * R * p.z * invr4
    d2thetadxdy := -p.x * p.y * (r2 + 2 * R2) * temp
    d2thetadxdz := p.x * temp2
    d2thetadydz := p.y * temp2
    d2phidx2 := 2 * p.x * p.y / R2 ^ 2
    d2phidy2 := -(2 * p.x * p.y / R2 ^ 2)
    d2phidxdy := (y2 - x2) / R2 ^ 2 }

/-- coord.cpp:166-185, first derivatives -/
noncomputable def derivCylCar (p : PosCyl) : DerivCylCar :=
  let x := p.R * cos p.phi
  let y := p.R * sin p.phi
  { dxdR := cos p.phi
    dydR := sin p.phi
    dxdphi := -y
    dydphi := x }

/-- coord.cpp:166-185, second derivatives -/
noncomputable def deriv2CylCar (p : PosCyl) : Deriv2CylCar :=
  let x := p.R * cos p.phi
  let y := p.R * sin p.phi
  { d2xdRdphi := -sin p.phi
    d2ydRdphi := cos p.phi
    d2xdphi2 := -x
    d2ydphi2 := -y }

/-- coord.cpp:187-208, first derivatives -/
noncomputable def derivCylSph (p : PosCyl) : DerivCylSph :=
  let r := √(p.R ^ 2 + p.z ^ 2)
  let rinv := 1 / r
  let costheta := p.z * rinv
  let sintheta := p.R * rinv
  { drdR := sintheta
    drdz := costheta
    dthetadR := costheta * rinv
    dthetadz := -sintheta * rinv }

/-- coord.cpp:187-208, second derivatives -/
noncomputable def deriv2CylSph (p : PosCyl) : Deriv2CylSph :=
  let r := √(p.R ^ 2 + p.z ^ 2)
  let rinv := 1 / r
  let costheta := p.z * rinv
  let sintheta := p.R * rinv
  { d2rdR2 := costheta ^ 2 * rinv
    d2rdz2 := sintheta ^ 2 * rinv
    d2rdRdz := -costheta * sintheta * rinv
    d2thetadR2 := -2 * costheta * sintheta * rinv ^ 2
    d2thetadz2 := -(-2 * costheta * sintheta * rinv ^ 2)
    d2thetadRdz := (sintheta ^ 2 - costheta ^ 2) * rinv ^ 2 }

/-- coord.cpp:210-242, first derivatives -/
noncomputable def derivSphCar (p : PosSph) : DerivSphCar :=
  let R := p.r * sin p.theta
  let x := R * cos p.phi
  let y := R * sin p.phi
  let z := p.r * cos p.theta
  { dxdr := sin p.theta * cos p.phi
    dydr := sin p.theta * sin p.phi
    dzdr := cos p.theta
    dxdtheta := z * cos p.phi
    dydtheta := z * sin p.phi
    dzdtheta := -R
    dxdphi := -y
    dydphi := x }

/-- coord.cpp:210-242, second derivatives -/
noncomputable def deriv2SphCar (p : PosSph) : Deriv2SphCar :=
  let R := p.r * sin p.theta
  let x := R * cos p.phi
  let y := R * sin p.phi
  let z := p.r * cos p.theta
  { d2xdrdtheta := cos p.theta * cos p.phi
    d2ydrdtheta := cos p.theta * sin p.phi
    d2zdrdtheta := -sin p.theta
    d2xdrdphi := -sin p.theta * sin p.phi
    d2ydrdphi := sin p.theta * cos p.phi
    d2xdtheta2 := -x
    d2ydtheta2 := -y
    d2zdtheta2 := -z
    d2xdthetadphi := -z * sin p.phi
    d2ydthetadphi := z * cos p.phi
    d2xdphi2 := -x
    d2ydphi2 := -y }

/-- coord.cpp:244-263, first derivatives -/
noncomputable def derivSphCyl (p : PosSph) : DerivSphCyl :=
  let R := p.r * sin p.theta
  let z := p.r * cos p.theta
  { dRdr := sin p.theta
    dRdtheta := z
    dzdr := cos p.theta
    dzdtheta := -R }

/-- coord.cpp:244-263, second derivatives -/
noncomputable def deriv2SphCyl (p : PosSph) : Deriv2SphCyl :=
  { d2Rdrdtheta := cos p.theta
    d2Rdtheta2 := -p.r * sin p.theta
    d2zdrdtheta := -sin p.theta
    d2zdtheta2 := -p.r * cos p.theta }

open Classical in
/-- coord.cpp:93-123, the position returned: unlike `toPos` (`carToCyl`) the azimuth is 0 at R=0 (the same value since
`atan2(0,0)=0`) -/
noncomputable def posDerivCarCyl (p : PosCar) : PosCyl :=
  let R := √(p.x ^ 2 + p.y ^ 2)
  if R = 0 then ⟨0, p.z, 0⟩ else ⟨R, p.z, atan2 p.y p.x⟩

end Verif.Coord
