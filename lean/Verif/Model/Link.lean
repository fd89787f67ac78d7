/-
  Link functions and natural-parameter transformations (src/link.rs) as records of scalar
  functions.  In Rust `Transform` acts on arrays; every implementation in the crate (and the
  default methods) acts element by element, and the model keeps the element function.
-/
import Verif.Model.Array

namespace GLM

/-- `trait Transform`, src/link.rs:118-166, element-wise. -/
structure Transform (F : Type) where
  /-- `nat_param`, src/link.rs:122 -/
  natParam : F → F
  /-- `d_nat_param`, src/link.rs:128 -/
  dNatParam : F → F
  /-- `adjust_errors errors lin_pred`, src/link.rs:132-135 -/
  adjustErrors : F → F → F
  /-- `adjust_variance variance lin_pred`, src/link.rs:139-146 -/
  adjustVariance : F → F → F
  /-- `adjust_errors_variance errors variance lin_pred`, src/link.rs:152-165 -/
  adjustErrorsVariance : F → F → F → F × F

/-- A `Transform` given by `nat_param` and `d_nat_param` with the provided default methods,
src/link.rs:132-165. -/
def Transform.ofNatParam {F : Type} [Scalar F] (nat dnat : F → F) : Transform F where
  natParam := nat
  dNatParam := dnat
  adjustErrors e w := dnat w * e
  adjustVariance v w := dnat w * v * dnat w
  adjustErrorsVariance e v w := (dnat w * e, dnat w * v * dnat w)

/-- The blanket implementation for `Canonical` links, src/link.rs:173-203. -/
def Transform.canonical {F : Type} [Scalar F] : Transform F where
  natParam w := w
  dNatParam _ := 1
  adjustErrors e _ := e
  adjustVariance v _ := v
  adjustErrorsVariance e v _ := (e, v)

/-- `trait Link<M>: Transform`, src/link.rs:107-114. -/
structure Link (F : Type) extends Transform F where
  /-- `func`, the link function, src/link.rs:111 -/
  func : F → F
  /-- `func_inv`, src/link.rs:113 -/
  funcInv : F → F

end GLM
