import Verif.Spec.Synthesis
import Verif.Props.Inference
import Verif.Proofs.Lifting
import Verif.Proofs.Vectors
import Verif.Proofs.FreeGraph
/-!
# Lemmas about synthesis runs
-/
namespace Ruler
open Spec EGraph
open scoped List
variable {O C V : Type} {ar : O → Nat → Prop}

/-- Represented terms are well-sorted. -/
theorem Rep.tmOk {S : Side O} {I : O → List V → V} {ok : Signature O C → V → Prop} {g : EGraph O C} {val : Nat → V}
    (hg : InvS S ar I ok g val) (t : Tm O) : ∀ i, Rep g t i → TmOk ar t := by
  induction t using Tm.ind with
  | hn o l ih =>
    intro i h
    obtain ⟨e, h1, h2, h3, h4⟩ := h
    have h4' := h4
    rw [RepL_iff] at h4
    refine .node ?_ fun a ha => ?_
    · have := hg.nodes_ar e h1
      rw [h2] at this
      rwa [h4.length_eq]
    · obtain ⟨b, -, hb⟩ := forall2_mem_left h4 ha
      exact ih a ha b hb

mutual
/-- Parsed terms are well-sorted. -/
theorem tmOk_ofSexp [Lang O] (hp : ParsesSorted (O := O) ar) : ∀ (s : Sexp) (t : Tm O), Tm.ofSexp s = some t → TmOk ar t
  | .atom s, t, h => by
    rw [Tm.ofSexp] at h
    obtain ⟨o, ho, rfl⟩ := Option.map_eq_some_iff.1 h
    exact .node (hp _ _ _ ho) (by simp)
  | .list [], t, h => by simp [Tm.ofSexp] at h
  | .list (.list _ :: _), t, h => by simp [Tm.ofSexp] at h
  | .list (.atom s :: args), t, h => by
    rw [Tm.ofSexp] at h
    obtain ⟨as, ha, h⟩ := Option.bind_eq_some_iff.1 h
    obtain ⟨o, ho, rfl⟩ := Option.map_eq_some_iff.1 h
    exact .node (hp _ _ _ ho) (tmOk_ofSexpL hp args as ha)
theorem tmOk_ofSexpL [Lang O] (hp : ParsesSorted (O := O) ar) : ∀ (l : List Sexp) (ts : List (Tm O)), Tm.ofSexpL l = some ts →
    ∀ t ∈ ts, TmOk ar t
  | [], ts, h => by simp [Tm.ofSexpL] at h; simp [h]
  | s :: l, ts, h => by
    rw [Tm.ofSexpL] at h
    obtain ⟨t, h1, h⟩ := Option.bind_eq_some_iff.1 h
    obtain ⟨us, h2, rfl⟩ := Option.map_eq_some_iff.1 h
    intro u hu
    rcases List.mem_cons.1 hu with rfl | hu
    · exact tmOk_ofSexp hp s _ h1
    · exact tmOk_ofSexpL hp l us h2 u hu
end

theorem noArrow_cons {c : Char} {s : List Char} (hc : c ≠ '=') (h : ¬ HasArrow s) : ¬ HasArrow (c :: s) := by
  intro ha
  rw [HasArrow, List.infix_cons_iff] at ha
  rcases ha with ha | ha
  · rw [List.cons_prefix_cons] at ha
    exact hc ha.1.symm
  · exact h ha

mutual
/-- Text made of atoms without arrows has no arrow. -/
theorem noArrow_printEgg : ∀ (s : Sexp), (∀ a, Subterm (.atom a) s → ¬ HasArrow a.toList) → ¬ HasArrow (Sexp.printEgg s)
  | .atom a, h => by rw [Sexp.printEgg]; exact h a (.refl _)
  | .list [], _ => by rw [Sexp.printEgg]; exact noArrow_short (by simp) (by simp)
  | .list (s :: l), h => by
    rw [Sexp.printEgg]
    refine noArrow_cons (by decide) (noArrow_append (noArrow_printEgg s fun a ha => h a ?_)
      (noArrow_printEggL l fun t ht a ha => h a ?_) ?_)
    · exact .child (by simp) ha
    · exact .child (by simp [ht]) ha
    · cases l <;> simp [Sexp.printEggL]
theorem noArrow_printEggL : ∀ (l : List Sexp), (∀ t ∈ l, ∀ a, Subterm (.atom a) t → ¬ HasArrow a.toList) →
    ¬ HasArrow (Sexp.printEggL l)
  | [], _ => by rw [Sexp.printEggL]; exact noArrow_short (by simp) (by simp)
  | s :: l, h => by
    rw [Sexp.printEggL]
    refine noArrow_cons (by decide) (noArrow_append (noArrow_printEgg s fun a ha => h s (by simp) a ha)
      (noArrow_printEggL l fun t ht a ha => h t (by simp [ht]) a ha) ?_)
    cases l <;> simp [Sexp.printEggL]
end

theorem letter_plain {v : String} (h : LetterVar v) : Plain v ∧ VarName v ∧ ¬ HasArrow v.toList := by
  obtain ⟨c, h1, h2, rfl⟩ := h
  have h1' : 97 ≤ c.toNat := h1
  have h2' : c.toNat ≤ 122 := h2
  refine ⟨⟨by simp, ?_⟩, ⟨c, [], by simp⟩, noArrow_short (by simp) (by simp)⟩
  intro d hd
  simp only [String.toList_ofList, List.mem_cons, List.not_mem_nil, or_false] at hd
  rcases hd with rfl | rfl
  · decide
  · refine ⟨?_, ?_, ?_, ?_⟩
    · intro hb
      simp only [blanks] at hb
      simp at hb
      omega
    · rintro rfl; revert h1'; decide
    · rintro rfl; revert h1'; decide
    · rintro rfl; revert h1'; decide

section
variable [Lang O]

/-- The rule made from a well-sorted term can be read back from its text. -/
theorem readable_schema (ho : OpsReadable (O := O) ar) {ρ : String → String} {t : Tm O} (ht : TmOk ar t)
    (hρ : ∀ x, VarIn x t → LetterVar (ρ x)) : Readable (schema ρ t) ∧ PatOk ar (schema ρ t) ∧
      ∀ a, Subterm (.atom a) (schema ρ t).toSexp → ¬ HasArrow a.toList := by
  induction t using Tm.ind with
  | hn o l ih =>
    cases ht with
    | node ha hargs =>
      cases hv : Lang.toVar o with
      | some x =>
        obtain ⟨h1, h2, h3⟩ := letter_plain (hρ x (.here hv))
        rw [schema_var _ hv]
        refine ⟨.var h1 h2, .var, fun a hs => ?_⟩
        rw [Pat.toSexp, subterm_atom_iff] at hs
        cases hs
        exact h3
      | none =>
        rw [schema_node _ hv]
        obtain ⟨h1, h2, h3, h4⟩ := ho o _ ha hv
        have key := fun a hm => ih a hm (hargs a hm) fun x hx => hρ x (.there hv hm hx)
        refine ⟨.node h1 h2 (by simpa using h3) ?_, .node (by simpa using ha) ?_, ?_⟩
        · simp only [List.mem_map, forall_exists_index, and_imp, forall_apply_eq_imp_iff₂]
          exact fun a hm => (key a hm).1
        · simp only [List.mem_map, forall_exists_index, and_imp, forall_apply_eq_imp_iff₂]
          exact fun a hm => (key a hm).2.1
        · intro a hs
          cases l with
          | nil =>
            rw [List.map_nil, Pat.toSexp, subterm_atom_iff] at hs
            cases hs
            exact h4
          | cons b l =>
            rw [List.map_cons, Pat.toSexp, subterm_list_iff] at hs
            rcases hs with hs | ⟨s, hm, hs⟩
            · cases hs
            · rw [Pat.toSexpL_eq, List.map_map, List.mem_cons, List.mem_cons, List.mem_map] at hm
              rcases hm with rfl | rfl | ⟨c, hc, rfl⟩
              · rw [subterm_atom_iff] at hs
                cases hs
                exact h4
              · exact (key b (by simp)).2.2 a hs
              · exact (key c (by simp [hc])).2.2 a hs

theorem noArrow_schema (ho : OpsReadable (O := O) ar) {ρ : String → String} {t : Tm O} (ht : TmOk ar t)
    (hρ : ∀ x, VarIn x t → LetterVar (ρ x)) : ¬ HasArrow (schema ρ t).print :=
  noArrow_printEgg _ (readable_schema ho ht hρ).2.2

/-- Rules proposed for well-sorted terms are well-sorted and can be read back from their text. -/
theorem addPairs_textual (ho : OpsReadable (O := O) ar) {ps : List (Tm O × Tm O)} {rs : Ruleset O}
    (h : Ruleset.addPairs [] ps = some rs) (hps : ∀ p ∈ ps, TmOk ar p.1 ∧ TmOk ar p.2) {q : Rule O}
    (hq : q ∈ Ruleset.iter rs) : Rule.Textual q ∧ GoodRule ar q := by
  obtain ⟨s1, s2⟩ := addPairs_schematic h hq
  rw [(addPairs_eq h).2] at hq
  rcases mem_iter_addAll' hq with hq | hq
  · simp [Ruleset.iter] at hq
  · obtain ⟨p, hp, hq⟩ := List.mem_flatMap.1 hq
    cases hg : generalizePair p.1 p.2 with
    | none => simp [dirsOf, hg] at hq
    | some lr =>
      obtain ⟨l, r⟩ := lr
      obtain ⟨m, hm, rfl, rfl, hmem⟩ := generalizePair_spec hg
      have key : ∀ x, PairVar p.1 p.2 x → LetterVar (m.fn x) := fun x hx => hm.fn_letter ((hmem x).2 hx)
      obtain ⟨ok1, ok2⟩ := hps p hp
      have k1 := readable_schema ho ok1 fun x hx => key x (.inl hx)
      have k2 := readable_schema ho ok2 fun x hx => key x (.inr hx)
      have n1 := noArrow_printEgg _ k1.2.2
      have n2 := noArrow_printEgg _ k2.2.2
      simp only [dirsOf, hg, dirs, Option.toList_some, List.flatMap_cons, List.flatMap_nil, List.append_nil,
        List.mem_append, Option.mem_toList] at hq
      rcases hq with hq | hq
      · obtain ⟨e1, e2, e3⟩ := new_sides hq
        refine ⟨⟨e3, ?_⟩, ⟨?_, s1, s2⟩⟩
        · rw [e1, e2]; exact ⟨k1.1, k2.1, n1, n2⟩
        · rw [RuleOk, e1, e2]; exact ⟨k1.2.1, k2.2.1⟩
      · obtain ⟨e1, e2, e3⟩ := new_sides hq
        refine ⟨⟨e3, ?_⟩, ⟨?_, s1, s2⟩⟩
        · rw [e1, e2]; exact ⟨k2.1, k1.1, n2, n1⟩
        · rw [RuleOk, e1, e2]; exact ⟨k2.2.1, k1.2.1⟩

variable [LinearOrder C] {D : Domain O C}

/-- Candidates that come from well-sorted representatives. -/
theorem cands_textual (ho : OpsReadable (O := O) ar) {g : EGraph O C} {fast : Bool} {order : List Nat} {best : Nat → Tm O}
    {cands : Ruleset O} (hord : order.Perm g.classes)
    (h : (if fast then fastCvecMatch g order best else cvecMatch g order best) = some cands)
    (hb : ∀ i ∈ g.classes, TmOk ar (best i)) {q : Rule O} (hq : q ∈ Ruleset.iter cands) :
    Rule.Textual q ∧ GoodRule ar q := by
  have hn : order.Nodup := hord.nodup_iff.2 ((List.nodup_range).filter _)
  split at h
  · refine addPairs_textual ho h (fun p hp => ?_) hq
    obtain ⟨⟨i, j⟩, hij, rfl⟩ := List.mem_map.1 hp
    obtain ⟨hs, -⟩ := mem_fastPairs.1 hij
    exact ⟨hb i (hord.mem_iff.1 (sublist_pair_mem hs).1), hb j (hord.mem_iff.1 (sublist_pair_mem hs).2)⟩
  · obtain ⟨ps, h1, h⟩ := Option.bind_eq_some_iff.1 h
    refine addPairs_textual ho h (fun p hp => ?_) hq
    obtain ⟨⟨i, j⟩, hij, rfl⟩ := List.mem_map.1 hp
    obtain ⟨hi, hj, -⟩ := cvecPairs_sound hn h1 hij
    exact ⟨hb i (hord.mem_iff.1 hi), hb j (hord.mem_iff.1 hj)⟩

/-- The e-graph of a workload is made from well-sorted terms. -/
theorem toEGraph_terms (hp : ParsesSorted (O := O) ar) {w : Workload} {E : Egg} {g : EGraph O C}
    (h : w.toEGraph D E = some g) : ∃ ts, termsToEGraph D E ts = some g ∧ (∀ t ∈ ts, TmOk ar t) ∧
      ∃ ss, w.force = some ss ∧ ss.mapM Tm.ofSexp = some ts := by
  unfold Workload.toEGraph at h
  obtain ⟨ss, h1, h⟩ := Option.bind_eq_some_iff.1 h
  obtain ⟨ts, h2, h⟩ := Option.bind_eq_some_iff.1 h
  refine ⟨ts, h, fun t ht => ?_, ss, h1, h2⟩
  obtain ⟨s, -, e⟩ := mapM_option_mem h2 ht
  exact tmOk_ofSexp hp s t e

omit [Lang O] in
theorem mapM_option_fwd {A B : Type} {f : A → Option B} : ∀ {l : List A} {ts : List B}, l.mapM f = some ts → ∀ {a : A} {b : B},
    a ∈ l → f a = some b → b ∈ ts
  | [], ts, h, a, b, ha, _ => by simp at ha
  | x :: l, ts, h, a, b, ha, hb => by
    rw [List.mapM_cons] at h
    obtain ⟨y, hy, h⟩ := Option.bind_eq_some_iff.1 h
    obtain ⟨ys, hys, h⟩ := Option.bind_eq_some_iff.1 h
    cases h
    rcases List.mem_cons.1 ha with rfl | ha
    · rw [hy] at hb; cases hb; simp
    · exact List.mem_cons_of_mem _ (mapM_option_fwd hys ha hb)

/-- Every term of the workload is represented after compression. -/
theorem toEGraph_rep {w : Workload} {E E' : Egg} {g g' : EGraph O C} (h : w.toEGraph D E = some g)
    (hv : VarsOk (O := O) fun _ _ => True) {isSat : Rule O → Bool} {s : Scheduler}
    {rules : Ruleset O} {tr : SchedTrace} (hg' : Scheduler.run D E' isSat s rules tr g = some g') {ss : List Sexp}
    (hs : w.force = some ss) {x : Sexp} (hx : x ∈ ss) {t : Tm O} (ht : Tm.ofSexp x = some t) :
    ∃ i ∈ g'.classes, Rep g' t i := by
  have hreach : AnyHistory D g := toEGraph_reach hv (fun _ _ _ _ _ _ => TmOk.any _) h
  have h0 := h
  unfold Workload.toEGraph at h
  rw [hs, Option.bind_some] at h
  obtain ⟨ts, h2, h⟩ := Option.bind_eq_some_iff.1 h
  have hm : t ∈ ts := mapM_option_fwd h2 hx ht
  rw [termsToEGraph, Option.bind_eq_some_iff] at h
  obtain ⟨g1, h3, h4⟩ := h
  obtain ⟨⟨g2, ids⟩, h5, e⟩ := Option.map_eq_some_iff.1 h4
  cases e
  have hr1 : AnyHistory D g1 := by
    rw [initializeVars, Option.bind_eq_some_iff] at h3
    obtain ⟨q, _, h3⟩ := h3
    exact reach_initVars hv q.2 (.setLen _ .empty) h3
  obtain ⟨val, hI⟩ := AnyHistory.inv hr1
  obtain ⟨val', hI', -, hf, -⟩ := addTms_ok (unitInv D) ts (fun _ _ => TmOk.any _) hI h5
  obtain ⟨i, -, hi⟩ := forall2_mem_left hf hm
  have hi' := (C30_grows hreach hg').2 t i hi
  have hreach' : AnyHistory D g' := .run hreach (fun _ _ => trivial) hg'
  obtain ⟨val2, hI2⟩ := AnyHistory.inv hreach'
  refine ⟨g'.find i, ?_, Rep.congr hi' (hI2.idem i).symm⟩
  have := hI2.find_lt i (Rep.lt hI2 hi')
  simp [EGraph.classes, hI2.idem i, this]

/-- A rule between two terms is valid iff the terms are equal. -/
theorem Relates.holds_iff {q : Rule O} {t u : Tm O} (h : Relates q t u) {I : O → List V → V} :
    Holds I q ↔ ∀ env, tmVal env I t = tmVal env I u := by
  obtain ⟨ρ, hi, h1, h2, -⟩ := h
  constructor
  · intro hh env
    obtain ⟨ν, hν⟩ := unrename hi env
    have := hh ν
    rw [h1, h2, patVal_schema, patVal_schema] at this
    rw [tmVal_congr' (env' := fun x => ν (ρ x)) fun x hx => (hν x (.inl hx)).symm,
      tmVal_congr' (env' := fun x => ν (ρ x)) (t := u) fun x hx => (hν x (.inr hx)).symm]
    exact this
  · intro hh ν
    rw [h1, h2, patVal_schema, patVal_schema]
    exact hh _

/-- The compressed e-graph of a run, when the prior holds in an algebra. -/
theorem run_graph [Nonempty V] {I : O → List V → V} {mem : Interval C → V → Prop}
    (hF : ∀ env, FoldsIn D ar (withVars env I) mem) (hv : VarsOk (O := O) ar) (hps : ParsesSorted (O := O) ar)
    {R : RunEnv O C} (hR : RunOk D R) {w : Workload} {prior : Ruleset O} {pl : Limits}
    (hpr : ∀ r ∈ Ruleset.iter prior, GoodRule ar r ∧ Holds I r) {g g' : EGraph O C} (hg : w.toEGraph D R.build = some g)
    (hg' : Scheduler.run D R.eg R.isSat (.compress pl) prior R.tr g = some g') :
    Reach D ar (fun r => r ∈ Ruleset.iter prior) g' ∧ (R.order g').Perm g'.classes ∧ Extracts g' (R.best g') ∧
      ∀ k ∈ g'.classes, TmOk ar (R.best g' k) := by
  have r0 : Reach D ar (fun r => r ∈ Ruleset.iter prior) g :=
    toEGraph_reach hv (fun ss _ s _ t ht => tmOk_ofSexp hps s t ht) hg
  have r1 : Reach D ar (fun r => r ∈ Ruleset.iter prior) g' := .run r0 (fun r hr => hr) hg'
  obtain ⟨hord, hbest⟩ := hR g' (Reach.any r1)
  refine ⟨r1, hord, hbest, fun k hk => ?_⟩
  obtain ⟨val, hInv⟩ := Reach.inv (foldInv (hF fun _ => Classical.arbitrary V)) (fun _ _ _ h => h)
    (fun r hr => ⟨(hpr r hr).1.1, Holds.withVars (hpr r hr).1.2.1 (hpr r hr).1.2.2 (hpr r hr).2 _⟩) r1
  exact Rep.tmOk hInv _ _ (hbest k hk)

/-- Candidates relate classes whose vectors agree. -/
theorem cands_agree {g : EGraph O C} {fast : Bool} {order : List Nat} {best : Nat → Tm O} {cands : Ruleset O}
    (hord : order.Perm g.classes)
    (h : (if fast then fastCvecMatch g order best else cvecMatch g order best) = some cands) {q : Rule O}
    (hq : q ∈ Ruleset.iter cands) : ∃ i ∈ g.classes, ∃ j ∈ g.classes, Agree (g.cvecOf i) (g.cvecOf j) ∧
      Relates q (best i) (best j) := by
  cases fast with
  | true =>
    obtain ⟨i, hi, j, hj, -, he, -, hr, -⟩ := C26_sound hord h q hq
    exact ⟨i, hi, j, hj, fun k x y hx hy => by simp_all, hr⟩
  | false =>
    obtain ⟨i, hi, j, hj, -, -, -, ha, hr, -⟩ := C25_sound hord h q hq
    exact ⟨i, hi, j, hj, ha, hr⟩

end
end Ruler
