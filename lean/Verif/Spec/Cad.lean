import Verif.Model.DomCad
import Verif.Spec.Saturation
import Mathlib.Data.Real.Basic
/-!
# Specification of the domain of solids: functions on space

A solid is described by a function of the coordinates that is not negative inside (FRep). Quotients by zero make such a
function partial; `none` is undefined.
-/
namespace Ruler.Spec
open Ruler

/-- The operators of the language of functions. -/
inductive CadArith where
  | add | sub | mul | div | max | min
deriving DecidableEq

/-- Their symbols. -/
def CadArith.symbol : CadArith → CadOp
  | add => .add | sub => .sub | mul => .mul | div => .div | max => .max | min => .min

/-- Their values: undefined if an operand is undefined, and for quotients by zero. -/
noncomputable def CadArith.fn : CadArith → Option ℝ → Option ℝ → Option ℝ
  | add, some x, some y => some (x + y)
  | sub, some x, some y => some (x - y)
  | mul, some x, some y => some (x * y)
  | div, some x, some y => if y = 0 then none else some (x / y)
  | max, some x, some y => some (Max.max x y)
  | min, some x, some y => some (Min.min x y)
  | _, _, _ => none

/-- Points whose coordinates need not be defined. -/
abbrev Point := Option ℝ × Option ℝ × Option ℝ

/-- Functions on space. -/
abbrev SpaceFn := Point → Option ℝ

/-- The origin, where the values of scalars are taken (they are the same everywhere). -/
def origin : Point := (some 0, some 0, some 0)

/-- The box with a corner at the origin and sides `a`, `b`, `c`. -/
noncomputable def cubeField (a b c : Option ℝ) : SpaceFn := fun p =>
  let x := CadArith.div.fn p.1 a
  let y := CadArith.div.fn p.2.1 b
  let z := CadArith.div.fn p.2.2 c
  CadArith.min.fn (CadArith.min.fn (CadArith.min.fn x y) z)
    (CadArith.min.fn (CadArith.min.fn (CadArith.sub.fn (some 1) x) (CadArith.sub.fn (some 1) y)) (CadArith.sub.fn (some 1) z))

/-- The cylinder of height `h` and radius `r` about the third axis, centred at the origin. -/
noncomputable def cylinderField (h r : Option ℝ) : SpaceFn := fun p =>
  let x := CadArith.div.fn p.1 r
  let y := CadArith.div.fn p.2.1 r
  let z := CadArith.div.fn p.2.2 h
  CadArith.min.fn (CadArith.sub.fn (CadArith.sub.fn (some 1) (CadArith.mul.fn x x)) (CadArith.mul.fn y y))
    (CadArith.min.fn (CadArith.sub.fn (some (1 / 2)) z) (CadArith.add.fn (some (1 / 2)) z))

/-- The ball of radius `r` about the origin. -/
noncomputable def sphereField (r : Option ℝ) : SpaceFn := fun p =>
  let x := CadArith.div.fn p.1 r
  let y := CadArith.div.fn p.2.1 r
  let z := CadArith.div.fn p.2.2 r
  CadArith.sub.fn (CadArith.sub.fn (CadArith.sub.fn (some 1) (CadArith.mul.fn x x)) (CadArith.mul.fn y y)) (CadArith.mul.fn z z)

/-- The function a pattern describes, if its variables describe the functions `ρ` and the variable `?op` of the tables stands
for the operator `ω`. Patterns that describe no function (vectors, operator symbols) are not related to any. -/
inductive FRep (ω : CadArith) (ρ : String → SpaceFn) : Pat CadOp → SpaceFn → Prop
  | var (x : String) : x ≠ "?op" → FRep ω ρ (.var x) (ρ x)
  | dimX : FRep ω ρ (.node .dimX []) fun p => p.1
  | dimY : FRep ω ρ (.node .dimY []) fun p => p.2.1
  | dimZ : FRep ω ρ (.node .dimZ []) fun p => p.2.2
  | num (n : Int) : FRep ω ρ (.node (.num n) []) fun _ => some n
  | lit {a f} : FRep ω ρ a f → FRep ω ρ (.node .lit [a]) fun _ => f origin
  | scalar {a f} : FRep ω ρ a f → FRep ω ρ (.node .scalar [a]) fun _ => f origin
  | op (o : CadArith) {a b f g} : FRep ω ρ a f → FRep ω ρ b g →
      FRep ω ρ (.node .op [.node o.symbol [], a, b]) fun p => o.fn (f p) (g p)
  | opVar {a b f g} : FRep ω ρ a f → FRep ω ρ b g →
      FRep ω ρ (.node .op [.var "?op", a, b]) fun p => ω.fn (f p) (g p)
  | subst {a b c e f g h k} : FRep ω ρ a f → FRep ω ρ b g → FRep ω ρ c h → FRep ω ρ e k →
      FRep ω ρ (.node .subst [a, b, c, e]) fun p => k (f p, g p, h p)
  | trans {a b c e f g h k} : FRep ω ρ a f → FRep ω ρ b g → FRep ω ρ c h → FRep ω ρ e k →
      FRep ω ρ (.node .trans [.node .vec3 [a, b, c], e]) fun p =>
        k (CadArith.sub.fn p.1 (f origin), CadArith.sub.fn p.2.1 (g origin), CadArith.sub.fn p.2.2 (h origin))
  | scale {a b c e f g h k} : FRep ω ρ a f → FRep ω ρ b g → FRep ω ρ c h → FRep ω ρ e k →
      FRep ω ρ (.node .scale [.node .vec3 [a, b, c], e]) fun p =>
        k (CadArith.div.fn p.1 (f origin), CadArith.div.fn p.2.1 (g origin), CadArith.div.fn p.2.2 (h origin))
  | cube {a b c f g h} : FRep ω ρ a f → FRep ω ρ b g → FRep ω ρ c h →
      FRep ω ρ (.node .cube [.node .vec3 [a, b, c], .node .false []]) (cubeField (f origin) (g origin) (h origin))
  | cylinder {a b f g} (params : Pat CadOp) : FRep ω ρ a f → FRep ω ρ b g →
      FRep ω ρ (.node .cylinder [.node .vec3 [a, b, b], params, .node .true []]) (cylinderField (f origin) (g origin))
  | sphere {a f} (params : Pat CadOp) : FRep ω ρ a f → FRep ω ρ (.node .sphere [a, params]) (sphereField (f origin))
  | union {a b f g} : FRep ω ρ a f → FRep ω ρ b g → FRep ω ρ (.node .union [a, b]) fun p => CadArith.max.fn (f p) (g p)
  | inter {a b f g} : FRep ω ρ a f → FRep ω ρ b g → FRep ω ρ (.node .inter [a, b]) fun p => CadArith.min.fn (f p) (g p)

end Ruler.Spec
