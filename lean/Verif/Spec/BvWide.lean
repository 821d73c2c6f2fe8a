import Verif.Spec.BV
import Verif.Spec.Domain
/-!
# Literals that the translation to the solver keeps
-/
namespace Ruler
namespace Spec

/-- The meaning of operators with literals reduced to their low 64 bits. -/
def cutOpVal {N : Nat} : BvOp N → List (BitVec N) → BitVec N
  | .lit n, [] => BitVec.ofNat N (n.val.toNat % 2 ^ 64)
  | o, args => bvOpVal o args

/-- The literal is below `2 ^ 64`. -/
def LitNarrow {N : Nat} : BvOp N → Prop
  | .lit n => n.val.toNat < 2 ^ 64
  | _ => True

end Spec
end Ruler
