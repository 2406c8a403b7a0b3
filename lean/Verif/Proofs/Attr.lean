import Verif.Model.Shape
import Verif.Proofs.Basic

/-! # The flag byte and three-element arrays -/

namespace P2T

theorem attr_setC_isC : ∀ (x : BitVec 8) (v : Bool),
    ((EdgeAttr.mk x).setConstrained v).isConstrained = v := by decide +kernel
theorem attr_setC_isD : ∀ (x : BitVec 8) (v : Bool),
    ((EdgeAttr.mk x).setConstrained v).isDelaunay = (EdgeAttr.mk x).isDelaunay := by decide +kernel
theorem attr_setD_isD : ∀ (x : BitVec 8) (v : Bool),
    ((EdgeAttr.mk x).setDelaunay v).isDelaunay = v := by decide +kernel
theorem attr_setD_isC : ∀ (x : BitVec 8) (v : Bool),
    ((EdgeAttr.mk x).setDelaunay v).isConstrained = (EdgeAttr.mk x).isConstrained := by decide +kernel

@[simp] theorem EdgeAttr.isConstrained_setConstrained (e : EdgeAttr) (v : Bool) :
    (e.setConstrained v).isConstrained = v := attr_setC_isC e.bits v
@[simp] theorem EdgeAttr.isDelaunay_setConstrained (e : EdgeAttr) (v : Bool) :
    (e.setConstrained v).isDelaunay = e.isDelaunay := attr_setC_isD e.bits v
@[simp] theorem EdgeAttr.isDelaunay_setDelaunay (e : EdgeAttr) (v : Bool) :
    (e.setDelaunay v).isDelaunay = v := attr_setD_isD e.bits v
@[simp] theorem EdgeAttr.isConstrained_setDelaunay (e : EdgeAttr) (v : Bool) :
    (e.setDelaunay v).isConstrained = e.isConstrained := attr_setD_isC e.bits v

@[simp] theorem V3.get_set {α} (v : V3 α) (i j : Fin 3) (x : α) :
    (v.set i x).get j = if j = i then x else v.get j := by
  match i, j with
  | 0, 0 | 0, 1 | 0, 2 | 1, 0 | 1, 1 | 1, 2 | 2, 0 | 2, 1 | 2, 2 => rfl

@[simp] theorem EdgeAttr.isConstrained_default : EdgeAttr.default.isConstrained = false := by decide
@[simp] theorem EdgeAttr.isDelaunay_default : EdgeAttr.default.isDelaunay = false := by decide

end P2T
