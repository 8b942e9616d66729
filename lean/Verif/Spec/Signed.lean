import Verif.Signed
import Verif.Model.Fdm
import Verif.Model.Pdm
import Verif.Spec.FarField

/-!
# Specification: signed zeros

The same call with the signs of the zeros forgotten, and the root that a zero of either sign selects.
-/

namespace Snompy

/-- The sample without signs of zeros. -/
def Stack.plain (s : Stack SgR SgC) : Stack (FP ℝ) (FP ℂ) := ⟨s.eps.map SgC.val, s.t.map SgR.val, s.nuVac.map SgR.val⟩

/-- The directions without signs of zeros. -/
def Stack.FarArgs.plain (a : Stack.FarArgs SgR) : Stack.FarArgs (FP ℝ) :=
  ⟨a.q.map SgR.val, a.thetaIn.map SgR.val, a.nuVac.map SgR.val, a.polarization⟩

/-- The tip of the finite dipole model without signs of zeros. -/
def FdmArgs.plain (a : FdmArgs SgR SgC) : FdmArgs (FP ℝ) (FP ℂ) :=
  ⟨a.rTip.map SgR.val, a.lTip.map SgR.val, a.gFactor.map SgC.val, a.dQ0.map SgR.val, a.dQ1.map SgR.val, a.dQa.map SgR.val⟩

/-- The tip of the point dipole model without signs of zeros. -/
def PdmArgs.plain (a : PdmArgs SgR SgC) : PdmArgs (FP ℝ) (FP ℂ) :=
  ⟨a.rTip.map SgR.val, a.epsTip.map SgC.val, a.alphaTip.map SgC.val⟩

/-- A result without signs of zeros. -/
def unsigned (x : PyM SgC) : PyM (FP ℂ) := x.map SgC.val

/-- The entries of a matrix, without signs of zeros. -/
def Mat2.unsigned (M : Mat2 SgC) : Mat2 (FP ℂ) := ⟨M.m00.val, M.m01.val, M.m10.val, M.m11.val⟩

/-- The light has wavenumber `nu` and momentum `q`, given directly or by an angle. -/
def Stack.FarArgs.Aims (a : Stack.FarArgs SgR) (nu q : ℝ) : Prop :=
  (∃ x, a.nuVac = some x ∧ x.val = .num nu) ∧
    ((∃ x, a.q = some x ∧ x.val = .num q ∧ a.thetaIn = none) ∨
      ∃ x th, a.thetaIn = some x ∧ x.val = .num th ∧ a.q = none ∧ q = nu * Real.sin |th|)

/-- A permittivity and the signs of its real and imaginary parts, which count if these are zero. -/
structure SgEps where
  eps : ℂ
  reNeg : Bool := false
  imNeg : Bool := false

/-- The number as the program has it. -/
def SgEps.num (x : SgEps) : SgC := ⟨.num x.eps, x.reNeg, x.imNeg⟩

/-- A negative real permittivity with imaginary part `-0`. -/
def SgEps.Below (x : SgEps) : Prop := x.eps.re < 0 ∧ x.eps.im = 0 ∧ x.imNeg = true

open Classical in
/-- The medium, where the wavevector is the root with positive imaginary part, but for a permittivity with imaginary part `-0` the
opposite one. -/
noncomputable def SgEps.medium (x : SgEps) (nu q : ℝ) : Medium :=
  ⟨x.eps, if x.Below then -Complex.sqrt (x.eps * (nu : ℂ) ^ 2 - (q : ℂ) ^ 2) else Complex.sqrt (x.eps * (nu : ℂ) ^ 2 - (q : ℂ) ^ 2)⟩

/-- Environment, layers with thicknesses (and the signs of these), and substrate. -/
def signedLayers (env : SgEps) (L : List (SgEps × ℝ × Bool)) (sub : SgEps) (nu : Option SgR) : Stack SgR SgC :=
  ⟨env.num :: (L.map (fun l => l.1.num) ++ [sub.num]), L.map fun l => ⟨.num l.2.1, l.2.2⟩, nu⟩

end Snompy
