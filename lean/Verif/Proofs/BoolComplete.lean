import Verif.Proofs.BoolLaws
import Verif.Proofs.Complete
/-!
# What follows from the short Boolean equations
-/
namespace Ruler
open Spec

/-! ## Substitution -/

section
variable {O : Type} [Lang O]

mutual
/-- Replacing variables. -/
def tmSubst (τ : String → Tm O) : Tm O → Tm O
  | .node o args => match Lang.toVar o with
    | some x => τ x
    | none => .node o (tmSubstL τ args)
/-- Element-wise. -/
def tmSubstL (τ : String → Tm O) : List (Tm O) → List (Tm O)
  | [] => []
  | t :: l => tmSubst τ t :: tmSubstL τ l
end

theorem tmSubstL_eq (τ : String → Tm O) : ∀ l, tmSubstL τ l = l.map (tmSubst τ)
  | [] => by rw [tmSubstL, List.map_nil]
  | t :: l => by rw [tmSubstL, tmSubstL_eq τ l, List.map_cons]

theorem tmSubst_node {τ : String → Tm O} {o : O} (h : Lang.toVar o = none) (l : List (Tm O)) :
    tmSubst τ (.node o l) = .node o (l.map (tmSubst τ)) := by rw [tmSubst, h, ← tmSubstL_eq]

theorem tmSubst_patInst (τ : String → Tm O) (σ : String → Tm O) {p : Pat O} (h : Schematic p) :
    tmSubst τ (patInst σ p) = patInst (fun v => tmSubst τ (σ v)) p := by
  induction h with
  | var => simp only [patInst]
  | @node o args ho _ ih =>
    rw [patInst, patInst, tmSubst_node ho]
    congr 1
    induction args with
    | nil => rfl
    | cons p l ihl =>
      rw [patInstL, patInstL, List.map_cons, ih p (List.mem_cons_self ..), ihl ?_ fun s hs => ih s (List.mem_cons_of_mem _ hs)]
      exact fun a ha => by rename_i h; exact h a (List.mem_cons_of_mem _ ha)

theorem tmVal_subst {V : Type} (I : O → List V → V) (env : String → V) (τ : String → Tm O) (t : Tm O) :
    tmVal env I (tmSubst τ t) = tmVal (fun x => tmVal env I (τ x)) I t := by
  induction t using Tm.ind with
  | hn o l ih =>
    cases ho : Lang.toVar o with
    | some x => rw [tmSubst, ho]; simp only [tmVal, Tm.fold, ho]
    | none =>
      rw [tmSubst_node ho, tmVal, tmVal, Tm.fold_node, Tm.fold_node]
      simp only [withVars, ho, List.map_map]
      congr 1
      exact List.map_congr_left fun a ha => ih a ha
end

theorem Spec.Decided.subst {t u : Tm BoolOp} (h : Decided t u) (τ : String → Tm BoolOp) : Decided (tmSubst τ t) (tmSubst τ u) := by
  obtain ⟨ho, hl, h⟩ := h
  rename_i o args b
  rw [tmSubst_node ho]
  show Decided _ (boolLit b)
  refine .node ho (by simpa using hl) fun vs hvs => h vs ?_
  rw [List.forall₂_map_left_iff] at hvs
  refine hvs.imp fun a v hav c hc => hav c ?_
  rw [hc]
  rfl

theorem Spec.Provable.subst {R : Rule BoolOp → Prop} (hR : ∀ r, R r → Schematic r.lhs ∧ Schematic r.rhs) {t u : Tm BoolOp}
    (h : Provable R Decided t u) (τ : String → Tm BoolOp) : Provable R Decided (tmSubst τ t) (tmSubst τ u) := by
  induction h with
  | refl => exact .refl _
  | symm _ ih => exact .symm ih
  | trans _ _ i j => exact .trans i j
  | arg o l r _ ih =>
    cases ho : Lang.toVar o with
    | some x => rw [tmSubst, tmSubst, ho]; exact .refl _
    | none =>
      rw [tmSubst_node ho, tmSubst_node ho, List.map_append, List.map_append, List.map_cons, List.map_cons]
      exact .arg o _ _ ih
  | rule σ h =>
    rw [tmSubst_patInst _ _ (hR _ h).1, tmSubst_patInst _ _ (hR _ h).2]
    exact .rule _ h
  | given h => exact .given (h.subst τ)

theorem boolVal_and (env : String → Bool) (t u : Tm BoolOp) :
    boolVal env (.node .and [t, u]) = (boolVal env t && boolVal env u) := by rw [boolVal_node rfl]; rfl
theorem boolVal_or (env : String → Bool) (t u : Tm BoolOp) :
    boolVal env (.node .or [t, u]) = (boolVal env t || boolVal env u) := by rw [boolVal_node rfl]; rfl
theorem boolVal_xor (env : String → Bool) (t u : Tm BoolOp) :
    boolVal env (.node .xor [t, u]) = (boolVal env t ^^ boolVal env u) := by rw [boolVal_node rfl]; rfl
theorem boolVal_not (env : String → Bool) (t : Tm BoolOp) :
    boolVal env (.node .not [t]) = !boolVal env t := by rw [boolVal_node rfl]; rfl

/-! ## The algebra of provably equal formulas -/

/-- The valid equations over `a`, `b`, `c` of at most five operators, constants and variables can be proved. -/
def ShortComplete (R : Rule BoolOp → Prop) : Prop :=
  ∀ t u : Tm BoolOp, Formula (· ∈ ["a", "b", "c"]) t → Formula (· ∈ ["a", "b", "c"]) u → tmSize t ≤ 5 → tmSize u ≤ 5 →
    (∀ env, boolVal env t = boolVal env u) → Provable R Decided t u

/-- The assignment of three terms to `a`, `b`, `c`. -/
def three (a b c : Tm BoolOp) (x : String) : Tm BoolOp := if x = "a" then a else if x = "b" then b else c

section
variable {R : Rule BoolOp → Prop}

/-- Conjunction of classes, and so on. -/
noncomputable abbrev qAnd (x y : ProvClass R Decided) : ProvClass R Decided := provOp R Decided .and [x, y]
noncomputable abbrev qOr (x y : ProvClass R Decided) : ProvClass R Decided := provOp R Decided .or [x, y]
noncomputable abbrev qXor (x y : ProvClass R Decided) : ProvClass R Decided := provOp R Decided .xor [x, y]
noncomputable abbrev qNot (x : ProvClass R Decided) : ProvClass R Decided := provOp R Decided .not [x]

theorem qAnd_mk (t u : Tm BoolOp) : qAnd (provClass R Decided t) (provClass R Decided u) = provClass R Decided (.node .and [t, u]) :=
  provOp_map _ [t, u]
theorem qOr_mk (t u : Tm BoolOp) : qOr (provClass R Decided t) (provClass R Decided u) = provClass R Decided (.node .or [t, u]) :=
  provOp_map _ [t, u]
theorem qXor_mk (t u : Tm BoolOp) : qXor (provClass R Decided t) (provClass R Decided u) = provClass R Decided (.node .xor [t, u]) :=
  provOp_map _ [t, u]
theorem qNot_mk (t : Tm BoolOp) : qNot (provClass R Decided t) = provClass R Decided (.node .not [t]) :=
  provOp_map _ [t]

theorem shortLaws (hR : ∀ r, R r → Schematic r.lhs ∧ Schematic r.rhs) (H : ShortComplete R) :
    SmallLaws (qAnd (R := R)) qOr qXor qNot (provClass R Decided (boolLit true)) (provClass R Decided (boolLit false)) := by
  have key : ∀ (t u : Tm BoolOp) (a b c : Tm BoolOp), Formula (· ∈ ["a", "b", "c"]) t → Formula (· ∈ ["a", "b", "c"]) u →
      tmSize t ≤ 5 ∧ tmSize u ≤ 5 → (∀ env, boolVal env t = boolVal env u) →
      provClass R Decided (tmSubst (three a b c) t) = provClass R Decided (tmSubst (three a b c) u) :=
    fun t u a b c h1 h2 h3 h4 => provClass_eq.2 ((H t u h1 h2 h3.1 h3.2 h4).subst hR _)
  have ind : ∀ {P : ProvClass R Decided → Prop}, (∀ t, P (provClass R Decided t)) → ∀ x, P x := fun h x => Quotient.ind h x
  let A : Tm BoolOp := .node (.var "a") []
  let B : Tm BoolOp := .node (.var "b") []
  let C : Tm BoolOp := .node (.var "c") []
  have fA : Formula (· ∈ ["a", "b", "c"]) A := .var (by decide)
  have fB : Formula (· ∈ ["a", "b", "c"]) B := .var (by decide)
  have fC : Formula (· ∈ ["a", "b", "c"]) C := .var (by decide)
  constructor
  · refine ind fun a => ind fun b => ?_
    simp only [qAnd_mk]
    exact key (.node .and [A, B]) (.node .and [B, A]) a b a (.and fA fB) (.and fB fA) (by decide) fun env => Bool.and_comm _ _
  · refine ind fun a => ind fun b => ind fun c => ?_
    simp only [qAnd_mk]
    exact key (.node .and [.node .and [A, B], C]) (.node .and [A, .node .and [B, C]]) a b c (.and (.and fA fB) fC)
      (.and fA (.and fB fC)) (by decide) fun env => Bool.and_assoc _ _ _
  · refine ind fun a => ?_
    simp only [qAnd_mk, qOr_mk, qXor_mk, qNot_mk]
    exact key (.node .and [A, A]) A a a a (.and fA fA) fA (by decide) fun env => by
      simp only [A, B, C, boolVal_and, boolVal_or, boolVal_xor, boolVal_not, boolVal_var, boolVal_lit]; cases env "a" <;> rfl
  · refine ind fun a => ?_
    simp only [qAnd_mk, qOr_mk, qXor_mk, qNot_mk]
    exact key (.node .and [A, boolLit true]) A a a a (.and fA (.lit _)) fA (by decide) fun env => by
      simp only [A, B, C, boolVal_and, boolVal_or, boolVal_xor, boolVal_not, boolVal_var, boolVal_lit]; cases env "a" <;> rfl
  · refine ind fun a => ?_
    simp only [qAnd_mk, qOr_mk, qXor_mk, qNot_mk]
    exact key (.node .and [A, boolLit false]) (boolLit false) a a a (.and fA (.lit _)) (.lit _) (by decide) fun env => by
      simp only [A, B, C, boolVal_and, boolVal_or, boolVal_xor, boolVal_not, boolVal_var, boolVal_lit]; cases env "a" <;> rfl
  · refine ind fun a => ind fun b => ?_
    simp only [qAnd_mk, qOr_mk, qXor_mk, qNot_mk]
    exact key (.node .xor [A, B]) (.node .xor [B, A]) a b a (.xor fA fB) (.xor fB fA) (by decide) fun env => by
      simp only [A, B, C, boolVal_and, boolVal_or, boolVal_xor, boolVal_not, boolVal_var, boolVal_lit]; cases env "a" <;> cases env "b" <;> rfl
  · refine ind fun a => ind fun b => ind fun c => ?_
    simp only [qAnd_mk, qOr_mk, qXor_mk, qNot_mk]
    exact key (.node .xor [.node .xor [A, B], C]) (.node .xor [A, .node .xor [B, C]]) a b c (.xor (.xor fA fB) fC) (.xor fA (.xor fB fC)) (by decide) fun env => by
      simp only [A, B, C, boolVal_and, boolVal_or, boolVal_xor, boolVal_not, boolVal_var, boolVal_lit]; cases env "a" <;> cases env "b" <;> cases env "c" <;> rfl
  · refine ind fun a => ?_
    simp only [qAnd_mk, qOr_mk, qXor_mk, qNot_mk]
    exact key (.node .xor [A, A]) (boolLit false) a a a (.xor fA fA) (.lit _) (by decide) fun env => by
      simp only [A, B, C, boolVal_and, boolVal_or, boolVal_xor, boolVal_not, boolVal_var, boolVal_lit]; cases env "a" <;> rfl
  · refine ind fun a => ?_
    simp only [qAnd_mk, qOr_mk, qXor_mk, qNot_mk]
    exact key (.node .xor [A, boolLit false]) A a a a (.xor fA (.lit _)) fA (by decide) fun env => by
      simp only [A, B, C, boolVal_and, boolVal_or, boolVal_xor, boolVal_not, boolVal_var, boolVal_lit]; cases env "a" <;> rfl
  · refine ind fun a => ?_
    simp only [qAnd_mk, qOr_mk, qXor_mk, qNot_mk]
    exact key (.node .not [A]) (.node .xor [A, boolLit true]) a a a (.not fA) (.xor fA (.lit _)) (by decide) fun env => by
      simp only [A, B, C, boolVal_and, boolVal_or, boolVal_xor, boolVal_not, boolVal_var, boolVal_lit]; cases env "a" <;> rfl
  · refine ind fun a => ind fun b => ?_
    simp only [qAnd_mk, qOr_mk, qXor_mk, qNot_mk]
    exact key (.node .and [A, .node .not [B]]) (.node .xor [A, .node .and [A, B]]) a b a (.and fA (.not fB)) (.xor fA (.and fA fB)) (by decide) fun env => by
      simp only [A, B, C, boolVal_and, boolVal_or, boolVal_xor, boolVal_not, boolVal_var, boolVal_lit]; cases env "a" <;> cases env "b" <;> rfl
  · refine ind fun a => ind fun b => ?_
    simp only [qAnd_mk, qOr_mk, qXor_mk, qNot_mk]
    exact key (.node .not [.node .or [A, B]]) (.node .and [.node .not [A], .node .not [B]]) a b a (.not (.or fA fB)) (.and (.not fA) (.not fB)) (by decide) fun env => by
      simp only [A, B, C, boolVal_and, boolVal_or, boolVal_xor, boolVal_not, boolVal_var, boolVal_lit]; cases env "a" <;> cases env "b" <;> rfl
  · refine ind fun a => ?_
    simp only [qAnd_mk, qOr_mk, qXor_mk, qNot_mk]
    exact key (.node .not [.node .not [A]]) A a a a (.not (.not fA)) fA (by decide) fun env => by
      simp only [A, B, C, boolVal_and, boolVal_or, boolVal_xor, boolVal_not, boolVal_var, boolVal_lit]; cases env "a" <;> rfl
  · refine ind fun a => ?_
    simp only [qAnd_mk, qOr_mk, qXor_mk, qNot_mk]
    exact key (.node .and [A, .node .not [A]]) (boolLit false) a a a (.and fA (.not fA)) (.lit _) (by decide) fun env => by
      simp only [A, B, C, boolVal_and, boolVal_or, boolVal_xor, boolVal_not, boolVal_var, boolVal_lit]; cases env "a" <;> rfl
  · refine ind fun a => ind fun b => ?_
    simp only [qAnd_mk, qOr_mk, qXor_mk, qNot_mk]
    exact key (.node .and [A, .node .or [A, B]]) A a b a (.and fA (.or fA fB)) fA (by decide) fun env => by
      simp only [A, B, C, boolVal_and, boolVal_or, boolVal_xor, boolVal_not, boolVal_var, boolVal_lit]; cases env "a" <;> cases env "b" <;> rfl
  · refine ind fun a => ind fun b => ?_
    simp only [qAnd_mk, qOr_mk, qXor_mk, qNot_mk]
    exact key (.node .and [.node .xor [A, B], A]) (.node .and [A, .node .not [B]]) a b a (.and (.xor fA fB) fA) (.and fA (.not fB)) (by decide) fun env => by
      simp only [A, B, C, boolVal_and, boolVal_or, boolVal_xor, boolVal_not, boolVal_var, boolVal_lit]; cases env "a" <;> cases env "b" <;> rfl
  · refine ind fun a => ind fun b => ?_
    simp only [qAnd_mk, qOr_mk, qXor_mk, qNot_mk]
    exact key (.node .xor [.node .not [A], .node .not [B]]) (.node .xor [A, B]) a b a (.xor (.not fA) (.not fB)) (.xor fA fB) (by decide) fun env => by
      simp only [A, B, C, boolVal_and, boolVal_or, boolVal_xor, boolVal_not, boolVal_var, boolVal_lit]; cases env "a" <;> cases env "b" <;> rfl

/-- The substitution of a truth value for a variable. -/
def fixVar (x : String) (b : Bool) (y : String) : Tm BoolOp := if y = x then boolLit b else .node (.var y) []

theorem Spec.Formula.set {x : String} {l : List String} {t : Tm BoolOp} (h : Formula (· ∈ x :: l) t) (b : Bool) :
    Formula (· ∈ l) (tmSubst (fixVar x b) t) := by
  induction h with
  | lit c => exact .lit c
  | @var y hy =>
    show Formula _ (fixVar x b y)
    unfold fixVar
    split
    · exact .lit b
    · rename_i h
      exact .var ((List.mem_cons.1 hy).resolve_left h)
  | not _ i => exact .not i
  | and _ _ i j => exact .and i j
  | or _ _ i j => exact .or i j
  | xor _ _ i j => exact .xor i j

theorem boolVal_set (env : String → Bool) (x : String) (b : Bool) (t : Tm BoolOp) :
    boolVal env (tmSubst (fixVar x b) t) = boolVal (fun y => if y = x then b else env y) t := by
  rw [boolVal, tmVal_subst]
  show boolVal _ t = _
  congr 1
  funext y
  unfold fixVar
  split <;> rfl

/-- A formula is expanded along a variable. -/
theorem formula_expand (L : SmallLaws (qAnd (R := R)) qOr qXor qNot (provClass R Decided (boolLit true))
      (provClass R Decided (boolLit false))) {P : String → Prop} (x : String) {t : Tm BoolOp} (h : Formula P t) :
    provClass R Decided t = expand qAnd qXor qNot (provClass R Decided (.node (.var x) []))
      (provClass R Decided (tmSubst (fixVar x true) t)) (provClass R Decided (tmSubst (fixVar x false) t)) := by
  induction h with
  | lit c => exact (L.expand_const _ _).symm
  | @var y hy =>
    show _ = expand _ _ _ _ (provClass R Decided (fixVar x true y)) (provClass R Decided (fixVar x false y))
    by_cases hxy : y = x
    · subst hxy
      rw [fixVar, fixVar, if_pos rfl, if_pos rfl]
      exact (L.expand_self _).symm
    · rw [fixVar, fixVar, if_neg hxy, if_neg hxy]
      exact (L.expand_const _ _).symm
  | @not t _ i =>
    rw [← qNot_mk, i, L.expand_not, qNot_mk, qNot_mk]; rfl
  | and _ _ i j => rw [← qAnd_mk, i, j, L.expand_and, qAnd_mk, qAnd_mk]; rfl
  | or _ _ i j => rw [← qOr_mk, i, j, L.expand_or, qOr_mk, qOr_mk]; rfl
  | xor _ _ i j => rw [← qXor_mk, i, j, L.expand_xor, qXor_mk, qXor_mk]; rfl

/-- All valid equations are proved if the short ones are. -/
theorem provable_of_short (hR : ∀ r, R r → Schematic r.lhs ∧ Schematic r.rhs) (H : ShortComplete R) (l : List String) :
    ∀ {t u : Tm BoolOp}, Formula (· ∈ l) t → Formula (· ∈ l) u → (∀ env, boolVal env t = boolVal env u) → Provable R Decided t u := by
  have L := shortLaws hR H
  induction l with
  | nil =>
    intro t u ht hu h
    have hn : ∀ {t}, Formula (· ∈ ([] : List String)) t → ∀ x, ¬ VarIn x t := fun ht x hx => by simpa using ht.vars hx
    have hb : ∀ {t}, Formula (· ∈ ([] : List String)) t → Provable R Decided t (boolLit (boolVal (fun _ => false) t)) := fun {t} ht => by
      obtain ⟨b, hb⟩ := provable_ground (R := fun _ => False) ht (hn ht)
      have e : boolVal (fun _ => false) t = boolVal (fun _ => false) (boolLit b) :=
        provable_sound (I := withVars (fun _ => false) boolOpVal) (fun _ h => h.elim) (fun _ _ h => h.val _) hb
      rw [e]
      exact hb.mono fun _ h => h.elim
    exact (hb ht).trans (by rw [h]; exact (hb hu).symm)
  | cons x l ih =>
    intro t u ht hu h
    have e : ∀ b, provClass R Decided (tmSubst (fixVar x b) t) = provClass R Decided (tmSubst (fixVar x b) u) := fun b =>
      provClass_eq.2 (ih (ht.set b) (hu.set b) fun env => by rw [boolVal_set, boolVal_set, h])
    rw [← provClass_eq, formula_expand L x ht, formula_expand L x hu, e true, e false]

theorem Spec.Formula.finite {P : String → Prop} {t : Tm BoolOp} (h : Formula P t) : ∃ l : List String, Formula (· ∈ l) t := by
  have two : ∀ {t u : Tm BoolOp}, (∃ l : List String, Formula (· ∈ l) t) → (∃ l : List String, Formula (· ∈ l) u) →
      ∃ l : List String, Formula (· ∈ l) t ∧ Formula (· ∈ l) u := fun ⟨l, h⟩ ⟨k, h'⟩ =>
    ⟨l ++ k, h.mono fun _ hx => List.mem_append_left _ hx, h'.mono fun _ hx => List.mem_append_right _ hx⟩
  induction h with
  | lit c => exact ⟨[], .lit c⟩
  | @var x _ => exact ⟨[x], .var (List.mem_singleton.2 rfl)⟩
  | not _ i => obtain ⟨l, i⟩ := i; exact ⟨l, .not i⟩
  | and _ _ i j => obtain ⟨l, h, h'⟩ := two i j; exact ⟨l, .and h h'⟩
  | or _ _ i j => obtain ⟨l, h, h'⟩ := two i j; exact ⟨l, .or h h'⟩
  | xor _ _ i j => obtain ⟨l, h, h'⟩ := two i j; exact ⟨l, .xor h h'⟩

end

end Ruler
