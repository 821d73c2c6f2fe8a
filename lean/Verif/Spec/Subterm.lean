import Verif.Model.RecExpr
/-!
# Subterms and subpatterns
-/
namespace Ruler
namespace Spec
variable {O : Type}

/-- `u` occurs in `t` (possibly as the whole of it). -/
inductive TmSub : Tm O → Tm O → Prop
  | refl (t : Tm O) : TmSub t t
  | arg {u a : Tm O} {o : O} {l : List (Tm O)} : a ∈ l → TmSub u a → TmSub u (.node o l)

/-- `q` occurs in `p` (possibly as the whole of it). -/
inductive PatSub : Pat O → Pat O → Prop
  | refl (p : Pat O) : PatSub p p
  | arg {q a : Pat O} {o : O} {l : List (Pat O)} : a ∈ l → PatSub q a → PatSub q (.node o l)

/-- Everything below the root of `r` occurs in `l`. -/
def ArgsOccur (l r : Pat O) : Prop := ∀ q, PatSub q r → q ≠ r → PatSub q l

end Spec
end Ruler
