import Verif.Spec.Size
import Verif.Spec.Complete
import Verif.Spec.RecipeRules
import Verif.Proofs.Complete
/-!
# Algebras in which small Boolean laws hold and larger ones do not

Truth values are triples of Booleans. All connectives but conjunction are pointwise.
-/
namespace Ruler
open Spec

namespace Levels

/-- Triples of truth values. -/
abbrev V3 : Type := Bool × Bool × Bool

def const (b : Bool) : V3 := (b, b, b)
def lift1 (g : Bool → Bool) (a : V3) : V3 := (g a.1, g a.2.1, g a.2.2)
def lift2 (g : Bool → Bool → Bool) (a b : V3) : V3 := (g a.1 b.1, g a.2.1 b.2.1, g a.2.2 b.2.2)

/-- Pointwise connectives, with `f` for conjunction. -/
def val (f : V3 → V3 → V3) : BoolOp → List V3 → V3
  | .not, [a] => lift1 (!·) a
  | .and, [a, b] => f a b
  | .or, [a, b] => lift2 (· || ·) a b
  | .xor, [a, b] => lift2 (· != ·) a b
  | .implies, [a, b] => lift2 (fun a b => if a then b else true) a b
  | .lit b, [] => const b
  | _, _ => const false

/-- Shapes of patterns over two variables: constants and variables, negations, and conjunctions, disjunctions and exclusive ors. -/
inductive Sh
  | leaf (isVar b : Bool)
  | not (s : Sh)
  | bin (o : Option Bool) (s t : Sh)

def binOp : Option Bool → BoolOp
  | none => .and
  | some true => .or
  | some false => .xor

def Sh.size : Sh → Nat
  | leaf _ _ => 1
  | not s => s.size + 1
  | bin _ s t => s.size + t.size + 1

/-- The value for the values `a` and `b` of the variables. -/
def Sh.eval {B : Type} (I : BoolOp → List B → B) (a b : B) : Sh → B
  | leaf true true => a
  | leaf true false => b
  | leaf false c => I (.lit c) []
  | not s => I .not [s.eval I a b]
  | bin o s t => I (binOp o) [s.eval I a b, t.eval I a b]

/-- All shapes of size at most `n`. -/
def shapes : Nat → List Sh
  | 0 => []
  | n + 1 => [.leaf true true, .leaf true false, .leaf false true, .leaf false false] ++ (shapes n).map .not ++
    [none, some true, some false].flatMap fun o => (shapes n).flatMap fun s =>
      ((shapes n).filter fun t => s.size + t.size ≤ n).map (.bin o s)

theorem mem_shapes (s : Sh) : ∀ n, s.size ≤ n → s ∈ shapes n := by
  induction s with
  | leaf v b =>
    intro n h
    cases n with
    | zero => simp [Sh.size] at h
    | succ n => cases v <;> cases b <;> simp [shapes]
  | not s ih =>
    intro n h
    cases n with
    | zero => simp [Sh.size] at h
    | succ n =>
      simp only [shapes, List.mem_append, List.mem_map]
      exact .inl (.inr ⟨s, ih n (by simpa [Sh.size] using h), rfl⟩)
  | bin o s t ihs iht =>
    intro n h
    cases n with
    | zero => simp [Sh.size] at h
    | succ n =>
      simp only [Sh.size] at h
      simp only [shapes, List.mem_append, List.mem_flatMap, List.mem_map, List.mem_filter]
      refine .inr ⟨o, ?_, s, ihs n (by omega), t, ⟨iht n (by omega), by simpa using by omega⟩, rfl⟩
      rcases o with _ | _ | _ <;> simp

/-- The value of a formula with truth table `g`, if it is small. -/
def interp (f : V3 → V3 → V3) (g : Bool → Bool → Bool) (a b : V3) : V3 :=
  match g true true, g true false, g false true, g false false with
  | true, false, false, false => f a b
  | false, true, true, true => lift1 (!·) (f a b)
  | false, true, false, false => f a (lift1 (!·) b)
  | false, false, true, false => f (lift1 (!·) a) b
  | _, _, _, _ => lift2 g a b

def v3s : List V3 := [true, false].flatMap fun a => [true, false].flatMap fun b => [true, false].map fun c => (a, b, c)

theorem mem_v3s (v : V3) : v ∈ v3s := by
  obtain ⟨a, b, c⟩ := v
  cases a <;> cases b <;> cases c <;> decide

/-- Equality, fast to evaluate. -/
def same (a b : V3) : Bool := !(Bool.xor a.1 b.1 || Bool.xor a.2.1 b.2.1 || Bool.xor a.2.2 b.2.2)

theorem same_iff {a b : V3} : same a b = true ↔ a = b := by
  obtain ⟨a, a', a''⟩ := a
  obtain ⟨b, b', b''⟩ := b
  revert a a' a'' b b' b''
  decide

/-- The values of formulas of size at most `n` depend on their truth tables only. -/
def checkAll (f : V3 → V3 → V3) (l : List Sh) : Bool :=
  l.all fun s => v3s.all fun a => v3s.all fun b => same (s.eval (val f) a b) (interp f (fun x y => s.eval boolOpVal x y) a b)

abbrev check (f : V3 → V3 → V3) (n : Nat) : Bool := checkAll f (shapes n)

theorem check_spec {f : V3 → V3 → V3} {n : Nat} (h : check f n = true) {s : Sh} (hs : s.size ≤ n) (a b : V3) :
    s.eval (val f) a b = interp f (fun x y => s.eval boolOpVal x y) a b := by
  simp only [checkAll, List.all_eq_true] at h
  exact same_iff.1 (h s (mem_shapes s n hs) a (mem_v3s a) b (mem_v3s b))

/-- Every pattern over two variables has a shape. -/
theorem shape_of {x y : String} {p : Pat BoolOp} (ho : PatOk (fun o k => k = o.arity) p) (hu : OnlyOps (· ≠ BoolOp.implies) p)
    (hs : Schematic p) (hv : ∀ v ∈ p.vars, v = x ∨ v = y) :
    ∃ s : Sh, s.size = patSize p ∧ ∀ (B : Type) (I : BoolOp → List B → B) (ρ : String → B), patVal ρ I p = s.eval I (ρ x) (ρ y) := by
  induction p using Pat.ind with
  | hv v =>
    rcases hv v (by simp [Pat.vars]) with rfl | rfl
    · exact ⟨.leaf true true, rfl, fun _ _ _ => rfl⟩
    · exact ⟨.leaf true false, rfl, fun _ _ _ => rfl⟩
  | hn o l ih =>
    cases ho with
    | node ha ho =>
    cases hu with
    | node hne hu =>
    cases hs with
    | node hnv hs =>
    have sub : ∀ a ∈ l, ∃ s : Sh, s.size = patSize a ∧
        ∀ (B : Type) (I : BoolOp → List B → B) (ρ : String → B), patVal ρ I a = s.eval I (ρ x) (ρ y) := fun a h =>
      ih a h (ho a h) (hu a h) (hs a h) fun v hv' => hv v (by
        rw [Pat.vars]
        clear ih ho hu hs ha hv
        induction l with
        | nil => cases h
        | cons b l ihl =>
          rw [Pat.varsL, List.mem_append]
          rcases List.mem_cons.1 h with rfl | h
          · exact .inl hv'
          · exact .inr (ihl h))
    have two : ∀ b : Option Bool, o = binOp b → l.length = 2 → ∃ s : Sh, s.size = patSize (.node o l) ∧
        ∀ (B : Type) (I : BoolOp → List B → B) (ρ : String → B), patVal ρ I (.node o l) = s.eval I (ρ x) (ρ y) := by
      rintro b rfl hl
      obtain ⟨p, q, rfl⟩ := List.length_eq_two.1 hl
      obtain ⟨s, h1, h2⟩ := sub p (by simp)
      obtain ⟨t, h3, h4⟩ := sub q (by simp)
      refine ⟨.bin b s t, ?_, fun B I ρ => ?_⟩
      · simp only [Sh.size, patSize, patSizeL, h1, h3]; omega
      · simp only [patVal, patValL, Sh.eval, h2, h4]
    cases o with
    | lit c =>
      obtain rfl := List.eq_nil_of_length_eq_zero ha
      exact ⟨.leaf false c, rfl, fun _ _ _ => rfl⟩
    | not =>
      obtain ⟨p, rfl⟩ := List.length_eq_one_iff.1 ha
      obtain ⟨s, h1, h2⟩ := sub p (by simp)
      refine ⟨.not s, ?_, fun B I ρ => ?_⟩
      · simp only [Sh.size, patSize, patSizeL, h1, Nat.add_zero]
      · simp only [patVal, patValL, Sh.eval, h2]
    | and => exact two none rfl ha
    | or => exact two (some true) rfl ha
    | xor => exact two (some false) rfl ha
    | implies => exact absurd rfl hne
    | var z => cases hnv

/-- A pattern of Boolean operators with `k` occurrences of variables has at least `2 k - 1` operators and variables. -/
theorem vars_size {p : Pat BoolOp} (ho : PatOk (fun o k => k = o.arity) p) : 2 * p.vars.length ≤ patSize p + 1 := by
  induction p using Pat.ind with
  | hv v => simp [Pat.vars, patSize]
  | hn o l ih =>
    cases ho with
    | node ha ho =>
    have hle : l.length ≤ 2 := by rw [ha]; cases o <;> simp [BoolOp.arity]
    match l, hle with
    | [], _ => simp [Pat.vars, Pat.varsL, patSize]
    | [a], _ =>
      have := ih a (by simp) (ho a (by simp))
      simp only [Pat.vars, Pat.varsL, patSize, patSizeL, List.append_nil]
      omega
    | [a, b], _ =>
      have h1 := ih a (by simp) (ho a (by simp))
      have h2 := ih b (by simp) (ho b (by simp))
      simp only [Pat.vars, Pat.varsL, patSize, patSizeL, List.append_nil, List.length_append]
      omega
    | _ :: _ :: _ :: _, h => simp at h

theorem two_vars {l : List String} (h : l.length ≤ 2) : ∃ x y, x ≠ y ∧ ∀ v ∈ l, v = x ∨ v = y := by
  have other : ∀ x : String, ∃ y, x ≠ y := fun x => by
    by_cases h : x = "a"
    · exact ⟨"b", by rw [h]; decide⟩
    · exact ⟨"a", h⟩
  match l, h with
  | [], _ => exact ⟨"a", "b", by decide, by simp⟩
  | [x], _ =>
    obtain ⟨y, hy⟩ := other x
    exact ⟨x, y, hy, by simp⟩
  | [x, y], _ =>
    by_cases h : x = y
    · obtain ⟨z, hz⟩ := other x
      exact ⟨x, z, hz, by simp [h]⟩
    · exact ⟨x, y, h, by simp⟩
  | _ :: _ :: _ :: _, h => simp at h

/-- A valid rule of size at most `n ≤ 4` holds in every algebra that passes the check for `n`. -/
theorem holds_small {f : V3 → V3 → V3} {n : Nat} (hn : n ≤ 4) (hf : check f n = true) {q : Rule BoolOp}
    (hg : GoodRule (fun o k => k = o.arity) q) (hu : RuleUses (· ≠ BoolOp.implies) q) (hv : ∀ v ∈ q.rhs.vars, v ∈ q.lhs.vars)
    (hw : RuleWithin n q) (hq : Holds boolOpVal q) : Holds (val f) q := by
  obtain ⟨x, y, hxy, hvars⟩ := two_vars (l := q.lhs.vars) (by have := vars_size hg.1.1; have := hw.1; omega)
  obtain ⟨s, s1, s2⟩ := shape_of hg.1.1 hu.1 hg.2.1 hvars
  obtain ⟨t, t1, t2⟩ := shape_of hg.1.2 hu.2 hg.2.2 fun v h => hvars v (hv v h)
  have key : (fun a b => s.eval boolOpVal a b) = fun a b => t.eval boolOpVal a b := by
    funext a b
    have := hq fun v => if v = x then a else b
    rw [s2, t2] at this
    simpa [hxy.symm] using this
  intro ρ
  rw [s2, t2, check_spec hf (s1.trans_le hw.1), check_spec hf (t1.trans_le hw.2), key]

/-- Conjunctions that constants decide have the right value. -/
structure AndOk (f : V3 → V3 → V3) : Prop where
  left : ∀ a, f (const false) a = const false
  right : ∀ a, f a (const false) = const false
  unit : f (const true) (const true) = const true

theorem decided_val {f : V3 → V3 → V3} (hf : AndOk f) (env : String → V3) {t u : Tm BoolOp} (h : Decided t u) :
    Tm.fold (withVars env (val f)) t = Tm.fold (withVars env (val f)) u := by
  cases h with
  | @node o args b ho hl h =>
    have hlit : ∀ c, Tm.fold (withVars env (val f)) (boolLit c) = const c := fun c => rfl
    rw [hlit, Tm.fold_node, withVars, ho]
    show val f o _ = _
    have one : ∀ {a : Tm BoolOp} (π : V3 → Bool), (∀ c, π (const c) = c) → ∀ c, a = boolLit c → π (Tm.fold (withVars env (val f)) a) = c :=
      fun π hπ c e => by rw [e, hlit, hπ]
    have at1 : ∀ {a}, args = [a] → ∀ π : V3 → Bool, (∀ c, π (const c) = c) → boolOpVal o [π (Tm.fold (withVars env (val f)) a)] = b := by
      rintro a rfl π hπ
      exact h _ (.cons (one π hπ) .nil)
    have at2 : ∀ {a a'}, args = [a, a'] → ∀ π : V3 → Bool, (∀ c, π (const c) = c) →
        boolOpVal o [π (Tm.fold (withVars env (val f)) a), π (Tm.fold (withVars env (val f)) a')] = b := by
      rintro a a' rfl π hπ
      exact h _ (.cons (one π hπ) (.cons (one π hπ) .nil))
    cases o with
    | var z => cases ho
    | lit c =>
      obtain rfl := List.eq_nil_of_length_eq_zero hl
      have := h [] .nil
      simp only [boolOpVal] at this
      rw [← this]
      rfl
    | not =>
      obtain ⟨a, rfl⟩ := List.length_eq_one_iff.1 hl
      exact Prod.ext (at1 rfl (·.1) fun _ => rfl) (Prod.ext (at1 rfl (·.2.1) fun _ => rfl) (at1 rfl (·.2.2) fun _ => rfl))
    | or | xor | implies =>
      obtain ⟨a, a', rfl⟩ := List.length_eq_two.1 hl
      exact Prod.ext (at2 rfl (·.1) fun _ => rfl) (Prod.ext (at2 rfl (·.2.1) fun _ => rfl) (at2 rfl (·.2.2) fun _ => rfl))
    | and =>
      obtain ⟨a, a', rfl⟩ := List.length_eq_two.1 hl
      have hh : ∀ v w : Bool, (∀ c, a = boolLit c → v = c) → (∀ c, a' = boolLit c → w = c) → (v && w) = b :=
        fun v w h1 h2 => h [v, w] (.cons h1 (.cons h2 .nil))
      have inj : ∀ {c d}, boolLit c = boolLit d → c = d := fun e => by cases e; rfl
      show f (Tm.fold _ a) (Tm.fold _ a') = _
      by_cases ha : ∃ c, a = boolLit c
      · obtain ⟨c, rfl⟩ := ha
        rw [hlit]
        cases c with
        | false =>
          rw [hf.left]
          by_cases ha' : ∃ c, a' = boolLit c
          · obtain ⟨d, rfl⟩ := ha'
            rw [← hh false d (fun _ => inj) fun _ => inj]; rfl
          · rw [← hh false true (fun _ => inj) fun c e => absurd ⟨c, e⟩ ha']; rfl
        | true =>
          by_cases ha' : ∃ c, a' = boolLit c
          · obtain ⟨d, rfl⟩ := ha'
            rw [hlit, ← hh true d (fun _ => inj) fun _ => inj]
            cases d
            · exact hf.right _
            · exact hf.unit
          · have h1 := hh true true (fun _ => inj) fun c e => absurd ⟨c, e⟩ ha'
            have h2 := hh true false (fun _ => inj) fun c e => absurd ⟨c, e⟩ ha'
            exact absurd (h1.trans h2.symm) (by decide)
      · by_cases ha' : ∃ c, a' = boolLit c
        · obtain ⟨d, rfl⟩ := ha'
          rw [hlit]
          cases d with
          | false => rw [hf.right, ← hh false false (fun c e => absurd ⟨c, e⟩ ha) fun _ => inj]; rfl
          | true =>
            have h1 := hh true true (fun c e => absurd ⟨c, e⟩ ha) fun _ => inj
            have h2 := hh false true (fun c e => absurd ⟨c, e⟩ ha) fun _ => inj
            exact absurd (h1.trans h2.symm) (by decide)
        · have h1 := hh true true (fun c e => absurd ⟨c, e⟩ ha) fun c e => absurd ⟨c, e⟩ ha'
          have h2 := hh false false (fun c e => absurd ⟨c, e⟩ ha) fun c e => absurd ⟨c, e⟩ ha'
          exact absurd (h1.trans h2.symm) (by decide)

/-- Not commutative. -/
def and3 (a b : V3) : V3 := bif same a (const false) || same b (const false) then const false else bif same a (const true) then b else a
/-- Commutative, idempotent, with unit and zero, but `a & ~ a` is not zero. -/
def and4 (a b : V3) : V3 :=
  bif same a (const true) then b else bif same b (const true) then a
  else bif same a (const false) || same b (const false) then const false else bif same a b then a else (true, false, false)
/-- All laws of at most four atoms hold, but not those of De Morgan. -/
def and5 (a b : V3) : V3 := bif same a (const true) then b else bif same b (const true) then a else bif same a b then a else const false

theorem and3_ok : AndOk and3 := by
  refine ⟨fun a => ?_, fun a => ?_, ?_⟩ <;> first | decide | (obtain ⟨a, b, c⟩ := a; revert a b c; decide)
theorem and4_ok : AndOk and4 := by
  refine ⟨fun a => ?_, fun a => ?_, ?_⟩ <;> first | decide | (obtain ⟨a, b, c⟩ := a; revert a b c; decide)
theorem and5_ok : AndOk and5 := by
  refine ⟨fun a => ?_, fun a => ?_, ?_⟩ <;> first | decide | (obtain ⟨a, b, c⟩ := a; revert a b c; decide)

theorem check3 : check and3 2 = true := by decide +kernel
theorem check4 : check and4 3 = true := by decide +kernel
theorem check5 : check and5 4 = true := by
  have h1 : checkAll and5 ((shapes 4).take 70) = true := by decide +kernel
  have h2 : checkAll and5 (((shapes 4).drop 70).take 70) = true := by decide +kernel
  have h3 : checkAll and5 (((shapes 4).drop 70).drop 70) = true := by decide +kernel
  rw [check, ← List.take_append_drop 70 (shapes 4), ← List.take_append_drop 70 ((shapes 4).drop 70), checkAll, List.all_append,
    List.all_append]
  exact Bool.and_eq_true_iff.2 ⟨h1, Bool.and_eq_true_iff.2 ⟨h2, h3⟩⟩

end Levels
end Ruler
