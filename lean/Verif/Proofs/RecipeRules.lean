import Verif.Spec.RecipeRules
import Verif.Props.Conditional
import Verif.Props.SynthesisRational
import Verif.Proofs.Signature
import Verif.Props.RecipeTerms
/-!
# Lemmas on the rules of recipes
-/
namespace Ruler
open Spec EGraph
variable {O C : Type} [Lang O] [LinearOrder C] {D : Domain O C} {ar : O → Nat → Prop} {P : Rule O → Prop}

theorem AllRules.nil : AllRules ar P ([] : Ruleset O) :=
  ⟨Ruleset.WellFormed.nil, by simp [Ruleset.iter], by simp [Ruleset.iter], by simp [Ruleset.iter]⟩

theorem AllRules.of {rs : Ruleset O} (hw : WellFormed rs)
    (h : ∀ q ∈ Ruleset.iter rs, Rule.Textual q ∧ GoodRule ar q ∧ P q) : AllRules ar P rs :=
  ⟨hw, fun q hq => (h q hq).1, fun q hq => (h q hq).2.1, fun q hq => (h q hq).2.2⟩

theorem AllRules.extend {a b : Ruleset O} (ha : AllRules ar P a) (hb : AllRules ar P b) : AllRules ar P (Ruleset.extend a b) := by
  refine AllRules.of (Ruleset.WellFormed.extend ha.named hb.named) fun q hq => ?_
  rcases mem_extend_rules hq with hq | hq
  · exact ⟨ha.textual q hq, ha.sorted q hq, ha.hold q hq⟩
  · exact ⟨hb.textual q hq, hb.sorted q hq, hb.hold q hq⟩

/-- The atoms of a term occur in its text. -/
theorem atom_infix {a : String} {s : Sexp} (h : Subterm (.atom a) s) : a.toList <:+: Sexp.printEgg s := by
  have key : ∀ (l : List Sexp) (t : Sexp), t ∈ l → Sexp.printEgg t <:+: Sexp.printEggL l := by
    intro l
    induction l with
    | nil => simp
    | cons s l ih =>
      intro t ht
      rw [Sexp.printEggL]
      rcases List.mem_cons.1 ht with rfl | ht
      · exact ((List.prefix_append _ _).isInfix.trans (List.suffix_cons _ _).isInfix)
      · exact ((ih t ht).trans (List.suffix_append _ _).isInfix).trans (List.suffix_cons _ _).isInfix
  induction h with
  | refl => rw [Sexp.printEgg]; exact List.infix_rfl
  | child hm _ ih =>
    refine ih.trans ?_
    rename_i t l _
    cases l with
    | nil => simp at hm
    | cons s l =>
      rw [Sexp.printEgg]
      rcases List.mem_cons.1 hm with rfl | ht
      · exact (List.prefix_append _ _).isInfix.trans (List.suffix_cons _ _).isInfix
      · exact ((key l t ht).trans (List.suffix_append _ _).isInfix).trans (List.suffix_cons _ _).isInfix

/-- A text without arrows is made of atoms without arrows. -/
theorem atoms_noArrow {s : Sexp} (h : ¬ HasArrow (Sexp.printEgg s)) {a : String} (ha : Subterm (.atom a) s) :
    ¬ HasArrow a.toList := fun h' => h (h'.trans (atom_infix ha))

/-- What sides of returned rules are. -/
structure CleanPat (ar : O → Nat → Prop) (p : Pat O) : Prop where
  readable : Readable p
  sorted : PatOk ar p
  schematic : Schematic p
  noArrow : ∀ a, Subterm (.atom a) p.toSexp → ¬ HasArrow a.toList

omit [LinearOrder C] in
theorem CleanPat.of {q : Rule O} (h1 : Rule.Textual q) (h2 : GoodRule ar q) : CleanPat ar q.lhs ∧ CleanPat ar q.rhs :=
  ⟨⟨h1.2.1, h2.1.1, h2.2.1, fun _ => atoms_noArrow h1.2.2.2.1⟩, ⟨h1.2.2.1, h2.1.2, h2.2.2, fun _ => atoms_noArrow h1.2.2.2.2⟩⟩

theorem CleanPat.rule {q : Rule O} (hp : Rule.Proper q) (hl : CleanPat ar q.lhs) (hr : CleanPat ar q.rhs) :
    Rule.Textual q ∧ GoodRule ar q :=
  ⟨⟨hp, hl.readable, hr.readable, noArrow_printEgg _ hl.noArrow, noArrow_printEgg _ hr.noArrow⟩,
    ⟨hl.sorted, hr.sorted⟩, hl.schematic, hr.schematic⟩

theorem subterm_toSexp {o : O} {args : List (Pat O)} {a : Pat O} (hm : a ∈ args) {s : Sexp} (h : Subterm s a.toSexp) :
    Subterm s (Pat.node o args).toSexp := by
  cases args with
  | nil => simp at hm
  | cons b l =>
    rw [Pat.toSexp, Pat.toSexpL_eq]
    refine .child ?_ h
    rcases List.mem_cons.1 hm with rfl | hm
    · simp
    · exact List.mem_cons_of_mem _ (List.mem_cons_of_mem _ (List.mem_map_of_mem hm))

theorem CleanPat.arg {o : O} {args : List (Pat O)} (h : CleanPat ar (.node o args)) {a : Pat O} (hm : a ∈ args) : CleanPat ar a := by
  obtain ⟨h1, h2, h3, h4⟩ := h
  cases h1 with
  | node _ _ _ h1 =>
    cases h2 with
    | node _ h2 =>
      cases h3 with
      | node _ h3 => exact ⟨h1 a hm, h2 a hm, h3 a hm, fun b hb => h4 b (subterm_toSexp hm hb)⟩

theorem CleanPat.node {o : O} {args : List (Pat O)} (ho : OpsReadable ar) (h : ar o args.length) (hv : Lang.toVar o = none)
    (ha : ∀ a ∈ args, CleanPat ar a) : CleanPat ar (.node o args) := by
  obtain ⟨h1, h2, h3, h4⟩ := ho o _ h hv
  refine ⟨.node h1 h2 h3 fun a hm => (ha a hm).readable, .node h fun a hm => (ha a hm).sorted,
    .node hv fun a hm => (ha a hm).schematic, fun a hs => ?_⟩
  cases args with
  | nil =>
    rw [Pat.toSexp, subterm_atom_iff] at hs
    cases hs
    exact h4
  | cons b l =>
    rw [Pat.toSexp, subterm_list_iff] at hs
    rcases hs with hs | ⟨s, hm, hs⟩
    · cases hs
    · rw [Pat.toSexpL_eq, List.mem_cons, List.mem_cons, List.mem_map] at hm
      rcases hm with rfl | rfl | ⟨c, hc, rfl⟩
      · rw [subterm_atom_iff] at hs
        cases hs
        exact h4
      · exact (ha b (by simp)).noArrow a hs
      · exact (ha c (by simp [hc])).noArrow a hs

theorem CleanPat.denominator {ar : MathOp → Nat → Prop} {d p : Pat MathOp} (h : Denominator d p) (hp : CleanPat ar p) :
    CleanPat ar d := by
  induction h with
  | here => exact hp.arg (by simp)
  | inside hm _ ih => exact ih (hp.arg hm)

/-! ## Signatures -/

/-- Well-sorted, and with operators from `S`. -/
abbrev narrow (ar : O → Nat → Prop) (S : O → Prop) (o : O) (k : Nat) : Prop := ar o k ∧ (S o ∨ (Lang.toVar o).isSome)

theorem tmOk_narrow {S : O → Prop} {t : Tm O} (h1 : TmOk ar t) (h2 : TmUses S t) : TmOk (narrow ar S) t := by
  induction h1 with
  | node h _ ih =>
    cases h2 with
    | node h' hargs => exact .node ⟨h, h'⟩ fun a hm => ih a hm (hargs a hm)

omit [Lang O] in
theorem TmOk.mono {ar' : O → Nat → Prop} (h : ∀ o k, ar o k → ar' o k) {t : Tm O} (ht : TmOk ar t) : TmOk ar' t := by
  induction ht with
  | node h' _ ih => exact .node (h _ _ h') ih

theorem patOk_narrow {S : O → Prop} {p : Pat O} (h1 : PatOk ar p) (h2 : OnlyOps S p) : PatOk (narrow ar S) p := by
  induction h1 with
  | var => exact .var
  | node h _ ih =>
    cases h2 with
    | node h' hargs => exact .node ⟨h, .inl h'⟩ fun a hm => ih a hm (hargs a hm)

theorem patOk_uses {S : O → Prop} {p : Pat O} (h1 : PatOk (narrow ar S) p) (h2 : Schematic p) : OnlyOps S p := by
  induction h2 with
  | var => exact .var _
  | node hv _ ih =>
    cases h1 with
    | node h hargs =>
      refine .node ?_ fun a hm => ih a hm (hargs a hm)
      rcases h.2 with h | h
      · exact h
      · rw [hv] at h
        cases h

omit [Lang O] in
theorem PatOk.mono {ar' : O → Nat → Prop} (h : ∀ o k, ar o k → ar' o k) {p : Pat O} (hp : PatOk ar p) : PatOk ar' p := by
  induction hp with
  | var => exact .var
  | node h' _ ih => exact .node (h _ _ h') ih

theorem foldsSorted_narrow {S : O → Prop} (hF : FoldsSorted D ar) (hS : FoldsInto D S) : FoldsSorted D (narrow ar S) := by
  obtain ⟨mem, h⟩ := hF
  exact ⟨mem, fun o Js vs J ha hm hJ => h.interval o Js vs J ha.1 hm hJ, h.join,
    fun c v t hm ht => ⟨tmOk_narrow (h.const c v t hm ht).1 (hS.const c t ht), rfl⟩,
    fun nodes val i hn t ht => ⟨tmOk_narrow (h.custom nodes val i hn t ht).1 (hS.custom nodes i t ht), rfl⟩,
    fun x t ht => ⟨tmOk_narrow (h.varTerms x t ht).1 (hS.varTerms x t ht), rfl⟩⟩

theorem tmUses_kinded {S : O → Prop} {H : String → Nat → Prop}
    (hH : ∀ a k (o : O), H a k → Lang.fromOp a k = some o → S o ∨ (Lang.toVar o).isSome) {s : Sexp} (h : Kinded H s) {t : Tm O}
    (ht : Tm.ofSexp s = some t) : TmUses S t := by
  have key : ∀ (l : List Sexp), (∀ a ∈ l, ∀ t : Tm O, Tm.ofSexp a = some t → TmUses S t) → ∀ ts : List (Tm O),
      Tm.ofSexpL l = some ts → ts.length = l.length ∧ ∀ t ∈ ts, TmUses S t := by
    intro l
    induction l with
    | nil => intro _ ts h; cases h; simp
    | cons s l ih =>
      intro hl ts h
      rw [Tm.ofSexpL] at h
      obtain ⟨t, h1, h⟩ := Option.bind_eq_some_iff.1 h
      obtain ⟨us, h2, rfl⟩ := Option.map_eq_some_iff.1 h
      obtain ⟨e, k⟩ := ih (fun a ha => hl a (by simp [ha])) us h2
      refine ⟨by simp [e], fun u hu => ?_⟩
      rcases List.mem_cons.1 hu with rfl | hu
      · exact hl s (by simp) _ h1
      · exact k u hu
  induction h generalizing t with
  | atom ha =>
    rw [Tm.ofSexp] at ht
    obtain ⟨o, ho, rfl⟩ := Option.map_eq_some_iff.1 ht
    exact .node (hH _ _ _ ha ho) (by simp)
  | app _ h2 _ ih =>
    rw [Tm.ofSexp] at ht
    obtain ⟨as, ha, ht⟩ := Option.bind_eq_some_iff.1 ht
    obtain ⟨o, ho, rfl⟩ := Option.map_eq_some_iff.1 ht
    obtain ⟨e, k⟩ := key _ (fun a hm t => ih a hm) as ha
    rw [e] at ho
    exact .node (hH _ _ _ h2 ho) k

/-- The check that only operators from `S` occur in a workload. -/
def sigUses (S : O → Prop) [DecidablePred S] (w : Option Workload) : Bool :=
  match w.bind Workload.sig with
  | some l => l.all fun q => match (Lang.fromOp q.1 q.2 : Option O) with
    | some o => decide (S o) || (Lang.toVar o).isSome
    | none => true
  | none => false

theorem sigUses_spec {S : O → Prop} [DecidablePred S] {w : Option Workload} (h : sigUses S w = true) {w' : Workload}
    (hw : w = some w') : WorkloadUses S w' := by
  subst hw
  unfold sigUses at h
  split at h
  · rename_i l hl
    intro ss hss s hs t ht
    rw [Workload.force_some _ _ hss] at hs
    refine tmUses_kinded (fun a k o hm ho => ?_) (Workload.sig_kinded hl s hs) ht
    have := List.all_eq_true.1 h (a, k) hm
    simp only [ho, Bool.or_eq_true, decide_eq_true_eq] at this
    exact this
  · cases h

/-- The terms of a language use what the language uses. -/
theorem langUses_term {S : O → Prop} {L : RecipeLang} (hL : LangUses S L) {s : Sexp} (h : LangTerm L s) {t : Tm O}
    (ht : Tm.ofSexp s = some t) : TmUses S t := by
  refine tmUses_kinded (H := fun a k => (k = 0 ∧ ∃ w, (w ∈ L.vals ∨ w ∈ L.vars) ∧ a = String.ofList w) ∨
    ∃ i os w, k = i + 1 ∧ L.ops[i]? = some os ∧ w ∈ os ∧ a = String.ofList w) ?_ ?_ ht
  · rintro a k o (⟨rfl, w, hw, rfl⟩ | ⟨i, os, w, rfl, h1, h2, rfl⟩) ho
    · exact hL.1 w hw o ho
    · exact hL.2 i os h1 w h2 o ho
  · clear ht
    induction h with
    | val h => exact .atom (.inl ⟨rfl, _, .inl h, rfl⟩)
    | var h => exact .atom (.inl ⟨rfl, _, .inr h, rfl⟩)
    | app h1 h2 h3 _ ih =>
      refine .app ?_ (.inr ⟨_, _, _, h3, h1, h2, rfl⟩) ih
      rintro rfl
      simp at h3

/-- The check that only operators from `S` occur in a language. -/
def langSig (S : O → Prop) [DecidablePred S] (L : RecipeLang) : Bool :=
  let ok := fun (t : List Char) k => match (Lang.fromOp (String.ofList t) k : Option O) with
    | some o => decide (S o) || (Lang.toVar o).isSome
    | none => true
  L.vals.all (ok · 0) && L.vars.all (ok · 0) && (List.range L.ops.length).all fun i => (L.ops.getD i []).all (ok · (i + 1))

theorem langSig_spec {S : O → Prop} [DecidablePred S] {L : RecipeLang} (h : langSig S L = true) : LangUses S L := by
  simp only [langSig, Bool.and_eq_true, List.all_eq_true, List.mem_range] at h
  obtain ⟨⟨h1, h2⟩, h3⟩ := h
  constructor
  · intro t ht o ho
    have : _ := ht.elim (h1 t) (h2 t)
    simp only [ho, Bool.or_eq_true, decide_eq_true_eq] at this
    exact this
  · intro i os hos t ht o ho
    obtain ⟨hi, e⟩ := List.getElem?_eq_some_iff.1 hos
    have := h3 i hi t (by rw [List.getD_eq_getElem?_getD, hos]; exact ht)
    simp only [ho, Bool.or_eq_true, decide_eq_true_eq] at this
    exact this

theorem Spec.Lists.uses {S : O → Prop} {w : Option Workload} {P : Sexp → Prop} (h : Lists w P)
    (hP : ∀ s, P s → ∀ t : Tm O, Tm.ofSexp s = some t → TmUses S t) {w' : Workload} (hw : w = some w') : WorkloadUses S w' := by
  obtain ⟨w1, ts, h1, h2, h3⟩ := h
  rw [h1] at hw
  cases hw
  intro ss hss s hs
  rw [h2] at hss
  cases hss
  exact hP s ((h3 s).1 hs)

theorem level_uses {S : O → Prop} {L : RecipeLang} (hL : LangOk L) (hu : LangUses S L) {met : Metric} {n : Nat} (hn : 1 ≤ n)
    {w : Workload} (hw : recursiveWorkload met n L = some w) : WorkloadUses S w :=
  Spec.Lists.uses (w := recursiveWorkload met n L) (C66_level hL met n hn) (fun _ hs _ ht => langUses_term hu hs.1 ht) hw

/-! ## Runs -/

theorem run_uses {S : O → Prop} (hT : Typed D ar S) {R : RunEnv O C} (hR : RunOk D R) {w : Workload} (hw : WorkloadUses S w)
    {prior : Ruleset O} {pl : Limits} (hpr : ∀ r ∈ Ruleset.iter prior, GoodRule ar r ∧ RuleUses S r) {g g' : EGraph O C}
    (hg : w.toEGraph D R.build = some g) (hg' : Scheduler.run D R.eg R.isSat (.compress pl) prior R.tr g = some g') :
    (R.order g').Perm g'.classes ∧ ∀ k ∈ g'.classes, TmOk (narrow ar S) (R.best g' k) := by
  have hv : VarsOk (O := O) (narrow ar S) := fun s => ⟨(hT.vars s).1, (hT.vars s).2, .inr (by rw [(hT.vars s).1]; rfl)⟩
  have r0 : Reach D (narrow ar S) (fun r => r ∈ Ruleset.iter prior) g :=
    toEGraph_reach hv (fun ss h1 s h2 t ht => tmOk_narrow (tmOk_ofSexp hT.parses s t ht) (hw ss h1 s h2 t ht)) hg
  have r1 : Reach D (narrow ar S) (fun r => r ∈ Ruleset.iter prior) g' := .run r0 (fun r hr => hr) hg'
  obtain ⟨hord, hbest⟩ := hR g' (Reach.any r1)
  refine ⟨hord, fun k hk => ?_⟩
  obtain ⟨mem, hF⟩ := foldsSorted_narrow hT.folds hT.into
  obtain ⟨val, hInv⟩ := Reach.inv (foldInv hF) (fun _ _ _ h => h)
    (fun r hr => ⟨⟨patOk_narrow (hpr r hr).1.1.1 (hpr r hr).2.1, patOk_narrow (hpr r hr).1.1.2 (hpr r hr).2.2⟩, fun _ => rfl⟩) r1
  exact Rep.tmOk hInv _ _ (hbest k hk)

theorem goodRule_narrow {S : O → Prop} {q : Rule O} (h : GoodRule (narrow ar S) q) : GoodRule ar q :=
  ⟨⟨PatOk.mono (fun _ _ h => h.1) h.1.1, PatOk.mono (fun _ _ h => h.1) h.1.2⟩, h.2⟩

theorem ruleUses_narrow {S : O → Prop} {q : Rule O} (h : GoodRule (narrow ar S) q) : RuleUses S q :=
  ⟨patOk_uses h.1.1 h.2.1, patOk_uses h.1.2 h.2.2⟩

theorem AllRules.filter {rs : Ruleset O} (h : AllRules ar P rs) (p : List Char × Rule O → Bool) :
    AllRules ar P (rs.filter p : Ruleset O) := by
  have hsub : ∀ q ∈ Ruleset.iter (rs.filter p : Ruleset O), q ∈ Ruleset.iter rs := fun q hq => by
    obtain ⟨e, he, rfl⟩ := List.mem_map.1 hq
    exact List.mem_map_of_mem (List.mem_filter.1 he).1
  exact ⟨⟨fun e he => h.named.1 e (List.mem_filter.1 he).1, h.named.2.sublist (List.filter_sublist.map _)⟩, fun q hq => h.textual q (hsub q hq), fun q hq => h.sorted q (hsub q hq),
    fun q hq => h.hold q (hsub q hq)⟩

theorem recursiveRules_level {envs : Nat → RunEnv O C} {metric : Metric} {lang : RecipeLang} {prior out : Ruleset O} {n : Nat}
    {log : List (Nat × List (Rule O))} (h : recursiveRules D envs metric lang prior (n + 1) = some (out, log)) :
    ∃ rs log' w new asked, recursiveRules D envs metric lang prior n = some (rs, log') ∧
      recursiveWorkload metric (n + 1) lang = some w ∧
      runWorkloadInternal D (envs (n + 1)) w (Ruleset.extend rs prior) Limits.synthesis Limits.minimize true
        (decide (n + 1 < 3)) = some (new, asked) ∧
      out = Ruleset.extend new (Ruleset.extend rs prior) ∧ log = (n + 1, asked) :: log' := by
  rw [recursiveRules, Option.bind_eq_some_iff] at h
  obtain ⟨⟨rs, log'⟩, h1, h⟩ := h
  obtain ⟨w, hw, h⟩ := Option.bind_eq_some_iff.1 h
  obtain ⟨⟨new, asked⟩, h2, h⟩ := Option.map_eq_some_iff.1 h
  cases h
  exact ⟨rs, log', w, new, asked, h1, hw, h2, rfl, rfl⟩

/-! ## Domains -/

theorem bool_typed : Typed boolDomain (fun o k => k = o.arity) (· ≠ BoolOp.implies) where
  folds := ⟨fun _ _ => True, fun _ _ _ _ _ _ _ => trivial, fun _ _ _ _ _ _ _ => trivial,
    fun c v t _ h => by cases h; exact ⟨.node rfl (by simp), rfl⟩, fun _ _ _ _ _ h => (by cases h), fun _ _ h => (by cases h)⟩
  into := ⟨fun c t h => by cases h; exact .node (.inl (by simp)) (by simp), fun _ _ _ h => (by cases h), fun _ _ h => (by cases h)⟩
  vars := bool_varOps.1
  parses := bool_parsesSorted
  readable := bool_opsReadable

theorem bv_typed {N : Nat} (hN : N ≤ 64) : Typed (bvDomain N) (fun o k => k = o.arity ∧ LitProper o) (· ≠ BvOp.xor) where
  folds := bv_foldsSorted
  into := ⟨fun c t h => by cases h; exact .node (.inl (by simp)) (by simp), fun _ _ _ h => (by cases h), fun _ _ h => (by cases h)⟩
  vars := bv_varOps.1
  parses := bv_parsesSorted (by omega)
  readable := bv_opsReadable (by omega)

theorem halide_typed : Typed halideDomain (fun o k => k = o.arity ∧ PredLitFits o) (fun o => o ≠ .div ∧ o ≠ .implies) where
  folds := halide_foldsSorted
  into := ⟨fun c t h => by cases h; exact .node (.inl (by simp)) (by simp), fun _ _ _ h => (by cases h), fun _ _ h => (by cases h)⟩
  vars := halide_litVarOps.1
  parses := halide_parsesSorted
  readable := halide_opsReadable

theorem rational_typed {ck : Checked} (hk : Results64 ck) :
    Typed (rationalDomain ck) (fun o k => k = o.arity ∧ MathLitFits o) (· ≠ MathOp.ite) where
  folds := rational_foldsSorted hk
  into := ⟨fun c t h => by cases h; exact .node (.inl (by simp)) (by simp), fun _ _ _ h => (by cases h), fun _ _ h => (by cases h)⟩
  vars := rational_litVarOps.1
  parses := rational_parsesSorted
  readable := rational_opsReadable

/-- Without division, z3 and the evaluator agree. -/
theorem holds_eval {q : Rule PredOp}
    (hu : RuleUses (fun o => o ≠ .div ∧ o ≠ .implies) q) (h : Holds predOpVal q) : Holds evalOpVal q := by
  have same : ∀ {p : Pat PredOp}, OnlyOps (fun o => o ≠ .div ∧ o ≠ .implies) p → ∀ ρ, patVal ρ evalOpVal p = patVal ρ predOpVal p := by
    intro p hp ρ
    induction hp with
    | var => rfl
    | @node o args ho _ ih =>
      rw [patVal_node, patVal_node, List.map_congr_left ih]
      cases o with
      | div => exact absurd rfl ho.1
      | _ => rfl
  intro ρ
  rw [same hu.1, same hu.2]
  exact h ρ

theorem plain_of_noIf {p : Pat MathOp} (h : OnlyOps (· ≠ MathOp.ite) p) : PlainConditions p := by
  induction h with
  | var v => exact .var v
  | node hne _ ih => exact .node hne ih

/-! ## Conditional rules -/

theorem mathPat_clean {p : Pat MathOp} (h : CleanPat (fun o k => k = o.arity ∧ MathLitFits o) p) : MathPat p :=
  Schematic.patSorted (fun _ _ h => h.1) (by rintro o h x rfl; cases h) h.sorted h.schematic

theorem addCondition_proper {r q : Rule MathOp} (h : addCondition r = some (some q)) : Rule.Proper q := by
  unfold addCondition at h
  split at h
  · simp only [Option.map_eq_some_iff, Option.some.injEq, exists_eq_right] at h
    exact (new_sides h).2.2
  · cases h

/-- A rule with a condition is made of the sides of the rule. -/
theorem addCondition_clean {r q : Rule MathOp} (h : addCondition r = some (some q))
    (hl : CleanPat (fun o k => k = o.arity ∧ MathLitFits o) r.lhs) (hr : CleanPat (fun o k => k = o.arity ∧ MathLitFits o) r.rhs) :
    CleanPat (fun o k => k = o.arity ∧ MathLitFits o) q.lhs ∧ CleanPat (fun o k => k = o.arity ∧ MathLitFits o) q.rhs := by
  obtain ⟨d, hd, rfl⟩ := addCondition_some h
  refine ⟨hl, CleanPat.node rational_opsReadable ⟨rfl, trivial⟩ rfl ?_⟩
  have : CleanPat (fun o k => k = o.arity ∧ MathLitFits o) d := by
    rcases (hd d).2 rfl with ⟨h, -⟩ | ⟨h, -⟩
    · exact hl.denominator h
    · exact hr.denominator h
  simp only [List.mem_cons, List.not_mem_nil, or_false]
  rintro a (rfl | rfl | rfl) <;> assumption

/-- A division in a pattern shows in its text. -/
theorem noDiv {p : Pat MathOp} (hs : MathPat p) (h : '/' ∉ p.print) : OnlyOps (· ≠ MathOp.div) p := by
  have h' : ∀ a, Subterm (.atom a) p.toSexp → '/' ∉ a.toList := fun a ha hc => h ((atom_infix ha).subset hc)
  clear h
  induction hs with
  | var _ => exact .var _
  | @node o args ha hv hargs ih =>
    refine .node ?_ fun a hm => ih a hm fun b hb => h' b (subterm_toSexp hm hb)
    rintro rfl
    obtain ⟨x, y, rfl⟩ := list_len2 ha
    refine h' "/" ?_ (by decide)
    rw [Pat.toSexp]
    exact .child (by simp [Lang.display]) (.refl _)

/-- Patterns without division have values. -/
theorem total_of_noDiv {K : Type} [Field K] [LinearOrder K] {p : Pat MathOp} (hs : MathPat p) :
    OnlyOps (· ≠ MathOp.div) p → Total K p := by
  induction hs with
  | var _ => exact fun _ ρ => ⟨_, rfl⟩
  | @node o args ha hv hargs ih =>
    intro hi ρ
    cases hi with
    | node hne hi =>
    have key : ∀ a ∈ args, ∃ v, ratVal ρ a = some v := fun a hm => ih a hm (hi a hm) ρ
    cases o with
    | var x => exact (hv x rfl).elim
    | div => exact (hne rfl).elim
    | lit c =>
      obtain rfl := list_len0 ha
      exact ⟨c, rfl⟩
    | neg | abs =>
      obtain ⟨x, rfl⟩ := list_len1 ha
      obtain ⟨a, h1⟩ := key x (by simp)
      simp only [ratVal] at h1
      simp [ratVal, patVal, patValL, h1, mathOpVal]
    | ite =>
      obtain ⟨x, y, z, rfl⟩ := list_len3 ha
      obtain ⟨a, h1⟩ := key x (by simp)
      obtain ⟨b, h2⟩ := key y (by simp)
      obtain ⟨c, h3⟩ := key z (by simp)
      rw [ratVal_ite, h1, h2, h3]
      by_cases h0 : a = 0 <;> simp [h0]
    | _ =>
      obtain ⟨x, y, rfl⟩ := list_len2 ha
      obtain ⟨a, h1⟩ := key x (by simp)
      obtain ⟨b, h2⟩ := key y (by simp)
      simp only [ratVal] at h1 h2
      simp [ratVal, patVal, patValL, h1, h2, mathOpVal]

end Ruler
