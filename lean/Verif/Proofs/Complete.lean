import Verif.Spec.Complete
import Verif.Proofs.Folds
import Verif.Props.RecipeRules
import Mathlib.Data.Quot
/-!
# Completeness: what can be proved from the rules of a run
-/
namespace Ruler
open Spec EGraph
open scoped List
variable {O : Type}

section
variable {R : Rule O → Prop} {F : Tm O → Tm O → Prop}

theorem Spec.Provable.mono {R' : Rule O → Prop} (hR : ∀ r, R r → R' r) {t u : Tm O} (h : Provable R F t u) : Provable R' F t u := by
  induction h with
  | refl => exact .refl _
  | symm _ ih => exact .symm ih
  | trans _ _ i j => exact .trans i j
  | arg o l r _ ih => exact .arg o l r ih
  | rule σ h => exact .rule σ (hR _ h)
  | given h => exact .given h

theorem provable_args (o : O) {as bs : List (Tm O)} (h : List.Forall₂ (Provable R F) as bs) (l : List (Tm O)) :
    Provable R F (.node o (l ++ as)) (.node o (l ++ bs)) := by
  induction h generalizing l with
  | nil => exact .refl _
  | @cons a b as bs hab _ ih =>
    refine (Provable.arg o l as hab).trans ?_
    have := ih (l ++ [b])
    simpa using this

variable (R F) in
/-- Terms up to provable equality. -/
def provSetoid : Setoid (Tm O) := ⟨Provable R F, .refl, .symm, .trans⟩

variable (R F) in
/-- Classes of provably equal terms. -/
abbrev ProvClass : Type := Quotient (provSetoid R F)

variable (R F) in
/-- The class of a term. -/
def provClass (t : Tm O) : ProvClass R F := Quotient.mk (provSetoid R F) t

variable (R F) in
/-- The operators on classes. -/
noncomputable def provOp (o : O) (vs : List (ProvClass R F)) : ProvClass R F := provClass R F (.node o (vs.map Quotient.out))

theorem provClass_eq {t u : Tm O} : provClass R F t = provClass R F u ↔ Provable R F t u :=
  ⟨fun h => Quotient.exact h, fun h => Quotient.sound h⟩

theorem provOp_map (o : O) (ts : List (Tm O)) : provOp R F o (ts.map (provClass R F)) = provClass R F (.node o ts) := by
  refine provClass_eq.2 ?_
  have h : List.Forall₂ (Provable R F) ((ts.map (provClass R F)).map Quotient.out) ts := by
    rw [List.map_map]
    induction ts with
    | nil => exact .nil
    | cons t ts ih => exact .cons (provClass_eq.1 (Quotient.out_eq _)) ih
  exact provable_args o h []

theorem patVal_provClass (ρ : String → ProvClass R F) (p : Pat O) :
    patVal ρ (provOp R F) p = provClass R F (patInst (fun v => (ρ v).out) p) := by
  induction p using Pat.ind with
  | hv v =>
    rw [patVal, patInst]
    exact (Quotient.out_eq _).symm
  | hn o l ih =>
    rw [patVal, patInst, ← provOp_map]
    congr 1
    induction l with
    | nil => rfl
    | cons p l ihl =>
      rw [patValL, patInstL, List.map_cons, ih p (List.mem_cons_self ..), ihl fun s hs => ih s (List.mem_cons_of_mem _ hs)]

theorem holds_provOp {r : Rule O} (h : R r) : Holds (provOp R F) r := fun ρ => by
  rw [patVal_provClass, patVal_provClass, provClass_eq]
  exact .rule _ h

variable [Lang O] {ar : O → Nat → Prop}

theorem tmVal_provClass (hv : VarOps (O := O) ar) {t : Tm O} (ht : TmOk ar t) :
    tmVal (fun x => provClass R F (.node (Lang.mkVar x) [])) (provOp R F) t = provClass R F t := by
  induction t using Tm.ind with
  | hn o l ih =>
    cases ht with
    | node h1 h2 =>
    rw [tmVal, Tm.fold]
    cases ho : Lang.toVar o with
    | some x =>
      obtain ⟨rfl, hk⟩ := hv.2 o x ho
      cases List.eq_nil_of_length_eq_zero (hk _ h1)
      rfl
    | none =>
      simp only []
      rw [← provOp_map]
      congr 1
      clear h1
      induction l with
      | nil => rfl
      | cons p l ihl =>
        rw [Tm.foldL, List.map_cons, ihl (fun s hs => ih s (List.mem_cons_of_mem _ hs)) fun s hs => h2 s (List.mem_cons_of_mem _ hs)]
        congr 1
        exact ih p (List.mem_cons_self ..) (h2 p (List.mem_cons_self ..))

/-- What holds in all algebras can be proved. -/
theorem provable_of_val (hv : VarOps (O := O) ar) {t u : Tm O} (ht : TmOk ar t) (hu : TmOk ar u)
    (h : ∀ env, tmVal env (provOp R F) t = tmVal env (provOp R F) u) : Provable R F t u := by
  have := h fun x => provClass R F (.node (Lang.mkVar x) [])
  rwa [tmVal_provClass hv ht, tmVal_provClass hv hu, provClass_eq] at this
end

/-! ## Constant folding of Boolean formulas -/

/-- Both bounds are present, and if they are equal the value is that constant. -/
def ProvMem (R : Rule BoolOp → Prop) (F : Tm BoolOp → Tm BoolOp → Prop) (I : Interval Bool) (v : ProvClass R F) : Prop :=
  (I = ⟨some false, some true⟩) ∨ ∃ c, I = ⟨some c, some c⟩ ∧ v = provClass R F (boolLit c)

theorem bool_folds_prov (R : Rule BoolOp → Prop) (env : String → ProvClass R Decided) :
    FoldsIn boolDomain (fun o k => k = o.arity) (withVars env (provOp R Decided)) (ProvMem R Decided) where
  interval := by
    intro o Js vs J har hm hJ
    replace hJ : o.mkInterval Js = some J := hJ
    have hbd : ∀ {I v}, ProvMem R Decided I v → Bounded I ∧ ∃ b, InInterval I b := by
      rintro I v (rfl | ⟨c, rfl, -⟩)
      · exact ⟨⟨rfl, rfl⟩, true, by rintro a ⟨⟩; decide, by rintro a ⟨⟩; decide⟩
      · exact ⟨⟨rfl, rfl⟩, c, by rintro a ⟨⟩; exact le_refl _, by rintro a ⟨⟩; exact le_refl _⟩
    cases ho : Lang.toVar o with
    | some x =>
      cases o with
      | var y =>
        cases List.eq_nil_of_length_eq_zero har
        cases hm
        simp only [BoolOp.mkInterval, Interval.new] at hJ
        cases hJ
        exact .inl rfl
      | _ => cases ho
    | none =>
      have hne : ∃ bs, List.Forall₂ InInterval Js bs := by
        clear hJ har
        induction hm with
        | nil => exact ⟨[], .nil⟩
        | cons h _ ih =>
          obtain ⟨bs, hbs⟩ := ih
          obtain ⟨b, hb⟩ := (hbd h).2
          exact ⟨b :: bs, .cons hb hbs⟩
      obtain ⟨J', h1, h2, h3⟩ := C46_bool_node o ho Js (by rw [hm.length_eq, har])
        (fun I hI => by
          obtain ⟨i, hi, rfl⟩ := List.getElem_of_mem hI
          exact (hbd (hm.get hi (by rw [← hm.length_eq]; exact hi))).1) hne
      obtain rfl : J' = J := by
        rw [h1] at hJ
        exact Option.some.inj hJ
      rw [withVars, ho]
      -- arguments that are constants are replaced by them
      have hargs : ∃ as : List (Tm BoolOp), as.map (provClass R Decided) = vs ∧
          ∀ bs : List Bool, List.Forall₂ (fun a v => ∀ c, a = boolLit c → v = c) as bs → List.Forall₂ InInterval Js bs := by
        clear hJ har h1 h2 h3 hne
        induction hm with
        | nil => exact ⟨[], rfl, fun bs h => by cases h; exact .nil⟩
        | @cons I v Js vs h _ ih =>
          obtain ⟨as, e, k⟩ := ih
          rcases h with rfl | ⟨c, rfl, rfl⟩
          · refine ⟨v.out :: as, by rw [List.map_cons, e]; congr 1; exact Quotient.out_eq _, fun bs h => ?_⟩
            cases h with
            | cons _ h =>
            refine .cons ⟨?_, ?_⟩ (k _ h)
            · rintro a ⟨⟩; exact Bool.false_le _
            · rintro a ⟨⟩; exact Bool.le_true _
          · refine ⟨boolLit c :: as, by rw [List.map_cons, e], fun bs h => ?_⟩
            cases h with
            | cons h' h =>
            obtain rfl := h' c rfl
            refine .cons ⟨?_, ?_⟩ (k _ h)
            · rintro a ⟨⟩; exact le_refl _
            · rintro a ⟨⟩; exact le_refl _
      obtain ⟨as, rfl, has⟩ := hargs
      simp only [provOp_map]
      obtain ⟨l, h⟩ := J'
      obtain ⟨hl, hh⟩ := h2
      obtain ⟨l, rfl⟩ := Option.isSome_iff_exists.1 hl
      obtain ⟨h, rfl⟩ := Option.isSome_iff_exists.1 hh
      obtain ⟨bs, hbs⟩ := hne
      have hle := (h3 bs hbs).1 l rfl |>.trans ((h3 bs hbs).2 h rfl)
      by_cases e : l = h
      · subst e
        refine .inr ⟨l, rfl, provClass_eq.2 (.given (.node ho (by simpa using har) fun vs hvs => ?_))⟩
        exact le_antisymm ((h3 vs (has vs hvs)).2 l rfl) ((h3 vs (has vs hvs)).1 l rfl)
      · cases l <;> cases h <;> first | exact .inl rfl | exact absurd rfl e | exact absurd hle (by decide)
  join := by
    intro a b c v ha hb h
    have e := mergeInterval_eq h
    rcases ha with rfl | ⟨x, rfl, rfl⟩
    · rcases hb with rfl | ⟨y, rfl, rfl⟩
      · left; rw [e]; rfl
      · right; refine ⟨y, ?_, rfl⟩; rw [e]; cases y <;> rfl
    · rcases hb with rfl | ⟨y, rfl, hy⟩
      · right; refine ⟨x, ?_, rfl⟩; rw [e]; cases x <;> rfl
      · cases x <;> cases y
        · right; exact ⟨false, by rw [e]; rfl, rfl⟩
        · simp [mergeInterval, Interval.new, maxLow, minHigh] at h
          exact absurd h.1 (by decide)
        · simp [mergeInterval, Interval.new, maxLow, minHigh] at h
          exact absurd h.1 (by decide)
        · right; exact ⟨true, by rw [e]; rfl, rfl⟩
  const := by
    intro c v t hm ht
    simp only [boolDomain, Option.some.injEq] at ht
    subst ht
    refine ⟨.node rfl (by simp), ?_⟩
    rcases hm with h | ⟨c', h, rfl⟩
    · cases c <;> cases h
    · cases h
      rw [Tm.fold_node]
      exact provOp_map _ []
  custom := by intro nodes val i _ t h; cases h
  varTerms := by intro x t h; cases h

/-! ## Formulas -/

theorem boolVal_node {env : String → Bool} {o : BoolOp} (ho : Lang.toVar o = none) (l : List (Tm BoolOp)) :
    boolVal env (.node o l) = boolOpVal o (l.map (boolVal env)) := by
  rw [boolVal, ← tmVal_eq_fold, Tm.fold_node, withVars, ho]
  simp only []
  congr 1

theorem boolVal_var {env : String → Bool} (x : String) : boolVal env (.node (.var x) []) = env x := rfl
theorem boolVal_lit {env : String → Bool} (b : Bool) : boolVal env (boolLit b) = b := rfl

theorem boolVal_congr {env env' : String → Bool} {t : Tm BoolOp} (h : ∀ x, VarIn x t → env x = env' x) :
    boolVal env t = boolVal env' t := tmVal_congr' h

theorem tmSize_pos (t : Tm O) : 1 ≤ tmSize t := by cases t; simp [tmSize]

theorem Spec.Formula.mono {P Q : String → Prop} (hPQ : ∀ x, P x → Q x) {t : Tm BoolOp} (h : Formula P t) : Formula Q t := by
  induction h with
  | lit b => exact .lit b
  | var h => exact .var (hPQ _ h)
  | not _ ih => exact .not ih
  | and _ _ i j => exact .and i j
  | or _ _ i j => exact .or i j
  | xor _ _ i j => exact .xor i j

theorem Spec.Formula.sorted {P : String → Prop} {t : Tm BoolOp} (h : Formula P t) : TmOk (fun o k => k = o.arity) t := by
  induction h with
  | lit b => exact .node rfl (by simp)
  | var h => exact .node rfl (by simp)
  | not _ ih => exact .node rfl (by simpa using ih)
  | and _ _ i j => exact .node rfl (by simpa using ⟨i, j⟩)
  | or _ _ i j => exact .node rfl (by simpa using ⟨i, j⟩)
  | xor _ _ i j => exact .node rfl (by simpa using ⟨i, j⟩)

theorem Spec.Formula.vars {P : String → Prop} {t : Tm BoolOp} (ht : Formula P t) {x : String} (hx : VarIn x t) : P x := by
  induction ht with
  | lit b => cases hx with
    | here h => cases h
    | there _ h => cases h
  | var h => cases hx with
    | here e => cases e; exact h
    | there _ h => cases h
  | not _ i => cases hx with
    | here h => cases h
    | there _ hm hx => rcases List.mem_singleton.1 hm with rfl; exact i hx
  | and _ _ i j | or _ _ i j | xor _ _ i j => cases hx with
    | here h => cases h
    | there _ hm hx =>
      simp only [List.mem_cons, List.not_mem_nil, or_false] at hm
      rcases hm with rfl | rfl
      · exact i hx
      · exact j hx

/-- Well-sorted terms without implications are formulas. -/
theorem formula_of_sorted {t : Tm BoolOp} (h : TmOk (narrow (fun (o : BoolOp) k => k = o.arity) (· ≠ .implies)) t) :
    Formula (fun x => VarIn x t) t := by
  induction t using Tm.ind with
  | hn o l ih =>
    cases h with
    | node h1 h2 =>
    have hm : ∀ s ∈ l, Lang.toVar o = none → Formula (fun x => VarIn x (.node o l)) s := fun s hs ho =>
      (ih s hs (h2 s hs)).mono fun x hx => .there ho hs hx
    obtain ⟨har, hS⟩ := h1
    cases o with
    | lit b => cases List.eq_nil_of_length_eq_zero har; exact .lit b
    | var x => cases List.eq_nil_of_length_eq_zero har; exact .var (.here rfl)
    | not =>
      obtain ⟨a, rfl⟩ := List.length_eq_one_iff.1 har
      exact .not (hm a (by simp) rfl)
    | implies => rcases hS with hS | hS <;> simp_all [Lang.toVar]
    | and =>
      obtain ⟨a, b, rfl⟩ := List.length_eq_two.1 har
      exact .and (hm a (by simp) rfl) (hm b (by simp) rfl)
    | or =>
      obtain ⟨a, b, rfl⟩ := List.length_eq_two.1 har
      exact .or (hm a (by simp) rfl) (hm b (by simp) rfl)
    | xor =>
      obtain ⟨a, b, rfl⟩ := List.length_eq_two.1 har
      exact .xor (hm a (by simp) rfl) (hm b (by simp) rfl)

/-- A literal, or a formula with a variable. -/
def Spec.Formula.Reduced (r : Tm BoolOp) : Prop := (∃ b, r = boolLit b) ∨ ∃ x, VarIn x r

open Classical in
/-- Variables outside `P` are set to false. -/
noncomputable def maskEnv (P : String → Prop) (env : String → Bool) (x : String) : Bool := if P x then env x else false

/-- What setting the variables outside `P` to false leaves of a formula. -/
structure Shrunk (Q P : String → Prop) (t r : Tm BoolOp) : Prop where
  reduced : Formula.Reduced r
  formula : Formula (fun x => Q x ∧ P x) r
  val : ∀ env, boolVal env r = boolVal (maskEnv P env) t
  size : tmSize r ≤ tmSize t
  strict : (∃ x, VarIn x t ∧ ¬ P x) → tmSize r < tmSize t ∨ ∃ b, r = boolLit b

/-- A function of one truth value is constant, the identity or negation. -/
theorem shrunk_unary {Q P : String → Prop} (f : Bool → Bool) {t u r : Tm BoolOp} (h : Shrunk Q P u r)
    (hsz : tmSize u + 1 < tmSize t) (hval : ∀ env, boolVal (maskEnv P env) t = f (boolVal (maskEnv P env) u)) :
    ∃ r', Shrunk Q P t r' := by
  have hlit : ∀ b, (∀ env, boolVal (maskEnv P env) t = b) → ∃ r', Shrunk Q P t r' := fun b hb =>
    ⟨boolLit b, .inl ⟨b, rfl⟩, .lit b, fun env => (hb env).symm, tmSize_pos _, fun _ => .inr ⟨b, rfl⟩⟩
  rcases h.reduced with ⟨b, rfl⟩ | hx
  · refine hlit (f b) fun env => ?_
    rw [hval, ← h.val env]; rfl
  have h1 := h.size
  by_cases e1 : f false = f true
  · refine hlit (f false) fun env => ?_
    rw [hval]
    cases boolVal (maskEnv P env) u
    · rfl
    · exact e1.symm
  by_cases e2 : f false = false
  · have e3 : f true = true := by rw [e2] at e1; simpa using Ne.symm e1
    refine ⟨r, .inr hx, h.formula, fun env => ?_, by omega, fun _ => .inl (by omega)⟩
    rw [hval, ← h.val env]
    cases boolVal env r
    · exact e2.symm
    · exact e3.symm
  · have e2 : f false = true := by simpa using e2
    have e3 : f true = false := by rw [e2] at e1; simpa using Ne.symm e1
    obtain ⟨x, hx⟩ := hx
    have hs : tmSize (.node .not [r] : Tm BoolOp) = tmSize r + 1 := by simp [tmSize, tmSizeL]
    refine ⟨.node .not [r], .inr ⟨x, .there rfl (List.mem_singleton.2 rfl) hx⟩, .not h.formula, fun env => ?_, by omega,
      fun _ => .inl (by omega)⟩
    rw [hval, ← h.val env, boolVal_node rfl]
    simp only [List.map_cons, List.map_nil, boolOpVal]
    cases boolVal env r
    · exact e2.symm
    · exact e3.symm

theorem shrunk_binary {Q P : String → Prop} {o : BoolOp} (ho : Lang.toVar o = none) {t u r s : Tm BoolOp} (h1 : Shrunk Q P t r)
    (h2 : Shrunk Q P u s) (hform : Formula (fun x => Q x ∧ P x) r → Formula (fun x => Q x ∧ P x) s →
      Formula (fun x => Q x ∧ P x) (.node o [r, s])) : ∃ r', Shrunk Q P (.node o [t, u]) r' := by
  have hsz : ∀ a b : Tm BoolOp, tmSize (.node o [a, b]) = tmSize a + tmSize b + 1 := fun a b => by simp [tmSize, tmSizeL]
  have hv : ∀ env (a b : Tm BoolOp), boolVal env (.node o [a, b]) = boolOpVal o [boolVal env a, boolVal env b] := fun env a b => by
    rw [boolVal_node ho]; rfl
  have p1 := tmSize_pos t
  have p2 := tmSize_pos u
  by_cases c1 : ∃ b, r = boolLit b
  · obtain ⟨b, rfl⟩ := c1
    refine shrunk_unary (fun v => boolOpVal o [b, v]) h2 (by rw [hsz]; omega) fun env => ?_
    rw [hv, ← h1.val]; rfl
  by_cases c2 : ∃ b, s = boolLit b
  · obtain ⟨b, rfl⟩ := c2
    refine shrunk_unary (fun v => boolOpVal o [v, b]) h1 (by rw [hsz]; omega) fun env => ?_
    rw [hv, ← h2.val]; rfl
  obtain ⟨x, hx⟩ := h1.reduced.resolve_left c1
  have k1 := h1.size
  have k2 := h2.size
  refine ⟨.node o [r, s], .inr ⟨x, .there ho (by simp) hx⟩, hform h1.formula h2.formula, fun env => ?_, ?_, ?_⟩
  · rw [hv, hv, h1.val, h2.val]
  · rw [hsz, hsz]; omega
  · rintro ⟨y, hy, hP⟩
    left
    rw [hsz, hsz]
    cases hy with
    | here h => rw [ho] at h; cases h
    | there _ hm hy =>
      simp only [List.mem_cons, List.not_mem_nil, or_false] at hm
      rcases hm with rfl | rfl
      · have := (h1.strict ⟨y, hy, hP⟩).resolve_right c1
        omega
      · have := (h2.strict ⟨y, hy, hP⟩).resolve_right c2
        omega

theorem Spec.Formula.shrink {Q P : String → Prop} {t : Tm BoolOp} (h : Formula Q t) : ∃ r, Shrunk Q P t r := by
  induction h with
  | lit b =>
    refine ⟨boolLit b, .inl ⟨b, rfl⟩, .lit b, fun env => rfl, le_refl _, fun _ => .inr ⟨b, rfl⟩⟩
  | @var x hx =>
    by_cases hP : P x
    · refine ⟨.node (.var x) [], .inr ⟨x, .here rfl⟩, .var ⟨hx, hP⟩, fun env => ?_, le_refl _, ?_⟩
      · rw [boolVal_var, boolVal_var, maskEnv, if_pos hP]
      · rintro ⟨y, hy, hn⟩
        cases hy with
        | here h => cases h; exact absurd hP hn
        | there _ h => cases h
    · refine ⟨boolLit false, .inl ⟨_, rfl⟩, .lit _, fun env => ?_, le_refl _, fun _ => .inr ⟨_, rfl⟩⟩
      rw [boolVal_var, maskEnv, if_neg hP]; rfl
  | @not t _ ih =>
    obtain ⟨r, h⟩ := ih
    have hs : ∀ a : Tm BoolOp, tmSize (.node .not [a] : Tm BoolOp) = tmSize a + 1 := fun a => by simp [tmSize, tmSizeL]
    have hv : ∀ env (a : Tm BoolOp), boolVal env (.node .not [a]) = !boolVal env a := fun env a => by rw [boolVal_node rfl]; rfl
    rcases h.reduced with ⟨b, rfl⟩ | ⟨x, hx⟩
    · refine ⟨boolLit !b, .inl ⟨_, rfl⟩, .lit _, fun env => ?_, tmSize_pos _, fun _ => .inr ⟨_, rfl⟩⟩
      rw [hv, ← h.val env]; rfl
    · refine ⟨.node .not [r], .inr ⟨x, .there rfl (List.mem_singleton.2 rfl) hx⟩, .not h.formula, fun env => ?_, ?_, ?_⟩
      · rw [hv, hv, h.val]
      · have := h.size
        rw [hs, hs]; omega
      · rintro ⟨y, hy, hP⟩
        cases hy with
        | here h => cases h
        | there _ hm hy =>
          rcases List.mem_singleton.1 hm with rfl
          rcases h.strict ⟨y, hy, hP⟩ with h' | ⟨b, rfl⟩
          · left; rw [hs, hs]; omega
          · cases hx with
            | here h => cases h
            | there _ h => cases h
  | and _ _ i j =>
    obtain ⟨r, h⟩ := i
    obtain ⟨s, k⟩ := j
    exact shrunk_binary rfl h k .and
  | or _ _ i j =>
    obtain ⟨r, h⟩ := i
    obtain ⟨s, k⟩ := j
    exact shrunk_binary rfl h k .or
  | xor _ _ i j =>
    obtain ⟨r, h⟩ := i
    obtain ⟨s, k⟩ := j
    exact shrunk_binary rfl h k .xor

/-- A formula with a variable that is equal to a constant has more than one operator. -/
theorem size_of_constant {P : String → Prop} {t : Tm BoolOp} (h : Formula P t) {x : String} (hx : VarIn x t) {b : Bool}
    (hb : ∀ env, boolVal env t = b) : 1 < tmSize t := by
  cases h with
  | lit c =>
    cases hx with
    | here h => cases h
    | there _ h => cases h
  | @var y =>
    have := hb fun _ => !b
    rw [boolVal_var] at this
    simp at this
  | @not a => have := tmSize_pos a; simp only [tmSize, tmSizeL]; omega
  | @and a => have := tmSize_pos a; simp only [tmSize, tmSizeL]; omega
  | @or a => have := tmSize_pos a; simp only [tmSize, tmSizeL]; omega
  | @xor a => have := tmSize_pos a; simp only [tmSize, tmSizeL]; omega

/-- Constant formulas without variables are folded. -/
theorem provable_ground {R : Rule BoolOp → Prop} {P : String → Prop} {t : Tm BoolOp} (h : Formula P t) (hx : ∀ x, ¬ VarIn x t) :
    ∃ b, Provable R Decided t (boolLit b) := by
  have un : ∀ (o : BoolOp) (a : Tm BoolOp) (b : Bool), Lang.toVar o = none → o.arity = 1 → Provable R Decided a (boolLit b) →
      ∃ c, Provable R Decided (.node o [a]) (boolLit c) := fun o a b ho har ha =>
    ⟨boolOpVal o [b], (Provable.arg o [] [] ha).trans (.given (.node ho (by simp [har]) fun vs hvs => by
      cases hvs with
      | cons h1 h2 =>
      cases h2
      rw [h1 b rfl]))⟩
  have bin : ∀ (o : BoolOp) (a a' : Tm BoolOp) (b b' : Bool), Lang.toVar o = none → o.arity = 2 → Provable R Decided a (boolLit b) →
      Provable R Decided a' (boolLit b') → ∃ c, Provable R Decided (.node o [a, a']) (boolLit c) := fun o a a' b b' ho har ha ha' =>
    ⟨boolOpVal o [b, b'], (Provable.arg o [] [a'] ha).trans ((Provable.arg o [boolLit b] [] ha').trans
      (.given (.node ho (by simp [har]) fun vs hvs => by
      cases hvs with
      | cons h1 h2 =>
      cases h2 with
      | cons h2 h3 =>
      cases h3
      rw [h1 b rfl, h2 b' rfl])))⟩
  induction h with
  | lit b => exact ⟨b, .refl _⟩
  | var h => exact absurd (.here rfl) (hx _)
  | not _ i =>
    obtain ⟨b, hb⟩ := i fun x h => hx x (.there rfl (by simp) h)
    exact un _ _ b rfl rfl hb
  | and _ _ i j =>
    obtain ⟨b, hb⟩ := i fun x h => hx x (.there rfl (by simp) h)
    obtain ⟨c, hc⟩ := j fun x h => hx x (.there rfl (by simp) h)
    exact bin _ _ _ b c rfl rfl hb hc
  | or _ _ i j =>
    obtain ⟨b, hb⟩ := i fun x h => hx x (.there rfl (by simp) h)
    obtain ⟨c, hc⟩ := j fun x h => hx x (.there rfl (by simp) h)
    exact bin _ _ _ b c rfl rfl hb hc
  | xor _ _ i j =>
    obtain ⟨b, hb⟩ := i fun x h => hx x (.there rfl (by simp) h)
    obtain ⟨c, hc⟩ := j fun x h => hx x (.there rfl (by simp) h)
    exact bin _ _ _ b c rfl rfl hb hc

/-- Folding is right. -/
theorem Spec.Decided.val {t u : Tm BoolOp} (h : Decided t u) (env : String → Bool) : boolVal env t = boolVal env u := by
  cases h with
  | @node o args b ho hl h =>
    rw [boolVal_node ho, boolVal_lit]
    refine h _ ?_
    clear h ho hl
    induction args with
    | nil => exact .nil
    | cons a l ih => exact .cons (fun c e => by rw [e]; rfl) ih

/-! ## Soundness of proofs -/

theorem fold_patInst {V : Type} (I : O → List V → V) (σ : String → Tm O) (p : Pat O) :
    Tm.fold I (patInst σ p) = patVal (fun v => Tm.fold I (σ v)) I p := by
  induction p using Pat.ind with
  | hv v => rfl
  | hn o l ih =>
    rw [patInst, patVal, Tm.fold_node]
    congr 1
    induction l with
    | nil => rfl
    | cons p l ihl =>
      rw [patValL, patInstL, List.map_cons, ih p (List.mem_cons_self ..), ihl fun s hs => ih s (List.mem_cons_of_mem _ hs)]

/-- What is proved from equations that hold holds. -/
theorem provable_sound {V : Type} {I : O → List V → V} {R : Rule O → Prop} {F : Tm O → Tm O → Prop} (hR : ∀ r, R r → Holds I r)
    (hF : ∀ t u, F t u → Tm.fold I t = Tm.fold I u) {t u : Tm O} (h : Provable R F t u) : Tm.fold I t = Tm.fold I u := by
  induction h with
  | refl => rfl
  | symm _ ih => exact ih.symm
  | trans _ _ i j => exact i.trans j
  | arg o l r _ ih => rw [Tm.fold_node, Tm.fold_node, List.map_append, List.map_append, List.map_cons, List.map_cons, ih]
  | rule σ h => rw [fold_patInst, fold_patInst, hR _ h]
  | given h => exact hF _ _ h

/-! ## The formulas of the workload -/

theorem formula_sexp {vars : List String} (hv : ∀ x ∈ vars, x ≠ "true" ∧ x ≠ "false") {t : Tm BoolOp}
    (h : Formula (· ∈ vars) t) : ∃ s, LangTerm (boolLangOf vars) s ∧ Tm.ofSexp s = some t ∧ Sexp.measureT .atoms s = tmSize t ∧
      ∀ x, VarIn x t → HasWord (boolLangOf vars).vars s := by
  have hw : ∀ x : String, word x.toList = .atom x := fun x => by rw [word, String.ofList_toList]
  have un : ∀ {t s}, LangTerm (boolLangOf vars) s → Tm.ofSexp s = some t → Sexp.measureT .atoms s = tmSize t →
      (∀ x, VarIn x t → HasWord (boolLangOf vars).vars s) →
      ∃ s, LangTerm (boolLangOf vars) s ∧ Tm.ofSexp s = some (.node BoolOp.not [t]) ∧
        Sexp.measureT .atoms s = tmSize (.node BoolOp.not [t]) ∧
        ∀ x, VarIn x (.node BoolOp.not [t]) → HasWord (boolLangOf vars).vars s := by
    intro t s h1 h2 h3 h4
    refine ⟨.list [.atom "~", s], ?_, ?_, ?_, ?_⟩
    · rw [← hw "~"]
      exact .app (i := 0) (os := ["~".toList]) rfl (by simp) rfl (by simpa using h1)
    · simp [Tm.ofSexp, Tm.ofSexpL, h2, Lang.fromOp]
    · simp [Sexp.measureT, Sexp.measureTL, tmSize, tmSizeL, h3]; omega
    · intro x hx
      cases hx with
      | here h => cases h
      | there _ hm hx =>
        rcases List.mem_singleton.1 hm with rfl
        exact .arg (by simp) (h4 x hx)
  have bin : ∀ {o : BoolOp} {c : String}, c ∈ ["&", "|", "^"] → Lang.fromOp c 2 = some o → Lang.toVar o = none →
      ∀ {t s t' s'}, LangTerm (boolLangOf vars) s → Tm.ofSexp s = some t → Sexp.measureT .atoms s = tmSize t →
      (∀ x, VarIn x t → HasWord (boolLangOf vars).vars s) →
      LangTerm (boolLangOf vars) s' → Tm.ofSexp s' = some t' → Sexp.measureT .atoms s' = tmSize t' →
      (∀ x, VarIn x t' → HasWord (boolLangOf vars).vars s') →
      ∃ s, LangTerm (boolLangOf vars) s ∧ Tm.ofSexp s = some (.node o [t, t']) ∧
        Sexp.measureT .atoms s = tmSize (.node o [t, t']) ∧
        ∀ x, VarIn x (.node o [t, t']) → HasWord (boolLangOf vars).vars s := by
    intro o c hc ho hn t s t' s' h1 h2 h3 h4 k1 k2 k3 k4
    refine ⟨.list [.atom c, s, s'], ?_, ?_, ?_, ?_⟩
    · rw [← hw c]
      refine .app (i := 1) (os := ["&", "|", "^"].map String.toList) rfl (List.mem_map_of_mem hc) rfl ?_
      intro a ha
      simp only [List.mem_cons, List.not_mem_nil, or_false] at ha
      rcases ha with rfl | rfl
      · exact h1
      · exact k1
    · simp [Tm.ofSexp, Tm.ofSexpL, h2, k2, ho]
    · simp [Sexp.measureT, Sexp.measureTL, tmSize, tmSizeL, h3, k3]; omega
    · intro x hx
      cases hx with
      | here h => rw [hn] at h; cases h
      | there _ hm hx =>
        simp only [List.mem_cons, List.not_mem_nil, or_false] at hm
        rcases hm with rfl | rfl
        · exact .arg (by simp) (h4 x hx)
        · exact .arg (by simp) (k4 x hx)
  induction h with
  | lit b =>
    cases b
    · refine ⟨.atom "false", ?_, rfl, rfl, fun x hx => ?_⟩
      · rw [← hw "false"]
        exact .val (by simp [boolLangOf, RecipeLang.new])
      · cases hx with
        | here h => cases h
        | there _ h => cases h
    · refine ⟨.atom "true", ?_, rfl, rfl, fun x hx => ?_⟩
      · rw [← hw "true"]
        exact .val (by simp [boolLangOf, RecipeLang.new])
      · cases hx with
        | here h => cases h
        | there _ h => cases h
  | @var x hx =>
    have hm : x.toList ∈ (boolLangOf vars).vars := List.mem_map_of_mem hx
    refine ⟨.atom x, ?_, ?_, rfl, fun _ _ => ?_⟩
    · rw [← hw x]; exact .var hm
    · simp [Tm.ofSexp, Lang.fromOp, hv x hx]
    · rw [← hw x]; exact .here hm
  | not _ i =>
    obtain ⟨s, h1, h2, h3, h4⟩ := i
    exact un h1 h2 h3 h4
  | and _ _ i j =>
    obtain ⟨s, h1, h2, h3, h4⟩ := i
    obtain ⟨s', k1, k2, k3, k4⟩ := j
    exact bin (c := "&") (by simp) rfl rfl h1 h2 h3 h4 k1 k2 k3 k4
  | or _ _ i j =>
    obtain ⟨s, h1, h2, h3, h4⟩ := i
    obtain ⟨s', k1, k2, k3, k4⟩ := j
    exact bin (c := "|") (by simp) rfl rfl h1 h2 h3 h4 k1 k2 k3 k4
  | xor _ _ i j =>
    obtain ⟨s, h1, h2, h3, h4⟩ := i
    obtain ⟨s', k1, k2, k3, k4⟩ := j
    exact bin (c := "^") (by simp) rfl rfl h1 h2 h3 h4 k1 k2 k3 k4

theorem boolLang_uses (vars : List String) : LangUses (· ≠ BoolOp.implies) (boolLangOf vars) := by
  refine ⟨fun t _ o ho => ?_, fun i os hi t ht o ho => ?_⟩
  · left
    rintro rfl
    simp only [Lang.fromOp] at ho
    split_ifs at ho <;> simp_all
  · left
    rintro rfl
    have hc : String.ofList t = "->" := by
      simp only [Lang.fromOp] at ho
      split_ifs at ho <;> simp_all
    have ht' : t = "->".toList := by rw [← hc, String.toList_ofList]
    subst ht'
    match i, hi with
    | 0, hi => cases hi; simp at ht
    | 1, hi => cases hi; simp at ht
    | i + 2, hi => simp [boolLangOf, RecipeLang.new] at hi

/-! ## One level -/

variable [Lang O] {C : Type} [LinearOrder C] {D : Domain O C}

/-- Arguments of represented terms are represented. -/
theorem rep_arg {g : EGraph O C} (hg : AnyHistory D g) {o : O} {args : List (Tm O)} {i : Nat} (h : Rep g (.node o args) i)
    {a : Tm O} (ha : a ∈ args) : ∃ k ∈ g.classes, Rep g a k := by
  rw [Rep] at h
  obtain ⟨e, -, -, -, hl⟩ := h
  obtain ⟨k, hk⟩ : ∃ k, Rep g a k := by
    generalize e.1.children = is at hl
    induction args generalizing is with
    | nil => cases ha
    | cons b l ih =>
      cases is with
      | nil => cases hl
      | cons k is =>
        rcases List.mem_cons.1 ha with rfl | ha
        · exact ⟨k, hl.1⟩
        · exact ih ha is hl.2
  obtain ⟨val, hI⟩ := AnyHistory.inv hg
  refine ⟨g.find k, ?_, Rep.congr hk (hI.idem k).symm⟩
  have := hI.find_lt k (Rep.lt hI hk)
  simp [EGraph.classes, hI.idem k, this]

/-- Among the representatives equal to a formula a smallest one has only variables that all of them have. -/
theorem bool_hub {vars : List String} {n : Nat} {g : EGraph BoolOp Bool} {best : Nat → Tm BoolOp}
    (hbest : ∀ i ∈ g.classes, Least g tmSize i (best i)) (hform : ∀ i ∈ g.classes, Formula (fun x => VarIn x (best i)) (best i))
    (hsound : ∀ i t u, Rep g t i → Rep g u i → ∀ env, boolVal env t = boolVal env u)
    (hrep : ∀ r, Formula (· ∈ vars) r → Formula.Reduced r → tmSize r ≤ n → ∃ i ∈ g.classes, Rep g r i) {t : Tm BoolOp}
    (ht : Formula (· ∈ vars) t) (hr : Formula.Reduced t) (hn : tmSize t ≤ n) :
    ∃ k ∈ g.classes, (∀ env, boolVal env (best k) = boolVal env t) ∧
      ∀ i ∈ g.classes, (∀ env, boolVal env (best i) = boolVal env t) → Covers (best i) (best k) := by
  have hex : ∃ m, ∃ i ∈ g.classes, (∀ env, boolVal env (best i) = boolVal env t) ∧ tmSize (best i) = m := by
    obtain ⟨i, hi, h⟩ := hrep t ht hr hn
    exact ⟨_, i, hi, hsound i _ _ (hbest i hi).1 h, rfl⟩
  classical
  obtain ⟨k, hk, hkt, hkm⟩ := Nat.find_spec hex
  have hmin : ∀ i ∈ g.classes, (∀ env, boolVal env (best i) = boolVal env t) → tmSize (best k) ≤ tmSize (best i) :=
    fun i hi h => hkm ▸ Nat.find_min' hex ⟨i, hi, h, rfl⟩
  -- and so no larger than any represented equal formula
  have hmin' : ∀ r, (∃ i ∈ g.classes, Rep g r i) → (∀ env, boolVal env r = boolVal env t) → tmSize (best k) ≤ tmSize r := by
    rintro r ⟨i, hi, h⟩ he
    exact (hmin i hi fun env => (hsound i _ _ (hbest i hi).1 h env).trans (he env)).trans ((hbest i hi).2 r h)
  have hkn : tmSize (best k) ≤ n := (hmin' t (hrep t ht hr hn) fun _ => rfl).trans hn
  refine ⟨k, hk, hkt, fun i hi hit x hx => ?_⟩
  by_contra hxi
  obtain ⟨r, h⟩ := (hform k hk).shrink (P := fun x => VarIn x (best i) ∧ VarIn x t)
  have hval : ∀ env, boolVal env r = boolVal env t := by
    intro env
    rw [h.val, hkt, boolVal_congr (env' := maskEnv (fun x => VarIn x (best i)) env), ← hit,
      boolVal_congr (env' := env), hit]
    · intro y hy
      rw [maskEnv, if_pos hy]
    · intro y hy
      by_cases hb : VarIn y (best i)
      · rw [maskEnv, maskEnv, if_pos ⟨hb, hy⟩, if_pos hb]
      · rw [maskEnv, maskEnv, if_neg (fun h => hb h.1), if_neg hb]
  have hlt : tmSize r < tmSize (best k) := by
    rcases h.strict ⟨x, hx, fun h => hxi h.1⟩ with h' | ⟨b, rfl⟩
    · exact h'
    · exact size_of_constant (hform k hk) hx fun env => (hkt env).trans (hval env).symm
  have := hmin' r (hrep r (h.formula.mono fun y hy => ht.vars hy.2.2) h.reduced (h.size.trans hkn)) hval
  omega

end Ruler
