import Verif.Props.SynthesisDomains
import Verif.Props.Inference
/-!
# C87: fast-forwarding loses nothing
-/
namespace Ruler
open Spec EGraph
open scoped List
variable {O C V : Type} [Lang O] [LinearOrder C] {D : Domain O C} {ar : O → Nat → Prop}

/-- Well-sorted terms, in an e-graph made with rules that need not hold. -/
theorem FoldsSorted.tmOk (hS : FoldsSorted D ar) {R : Rule O → Prop} (hR : ∀ r, R r → GoodRule ar r) {g : EGraph O C}
    (h : Reach D ar R g) (t : Tm O) (i : Nat) (ht : Rep g t i) : TmOk ar t := by
  obtain ⟨mem, hF⟩ := hS
  obtain ⟨val, hInv⟩ := Reach.inv (foldInv hF) (fun _ _ _ h => h) (fun r hr => ⟨(hR r hr).1, fun _ => rfl⟩) h
  exact Rep.tmOk hInv t i ht

/-- The extracted candidates can be read back from their text. -/
theorem extract_textual (hor : OpsReadable (O := O) ar) {g1 g2 : EGraph O C} {ids keys : List Nat}
    (hids : ids.Perm g1.classes) {best : Nat → Nat × Tm O} (hb : ExtractsCost g1 best)
    (hok : ∀ t i, Rep g1 t i → TmOk ar t) {rs : Ruleset O} (h : extractCandidates g2 ids keys best = some rs) {q : Rule O}
    (hq : q ∈ Ruleset.iter rs) : Rule.Textual q ∧ GoodRule ar q := by
  unfold extractCandidates at h
  refine addPairs_textual hor h (fun p hp => ?_) hq
  obtain ⟨⟨i, j⟩, hij, rfl⟩ := List.mem_map.1 hp
  rw [List.mem_filter, mem_extractPairs] at hij
  exact ⟨hok _ i (hb i (hids.mem_iff.1 hij.1.1)).1, hok _ j (hb j (hids.mem_iff.1 hij.1.2.1)).1⟩

/-- A rule proposed for two terms was rejected, or the terms are equal. -/
theorem proposed_holds {I : O → List V → V} {mem : Interval C → V → Prop} (hF : ∀ env, FoldsIn D ar (withVars env I) mem)
    (hv : VarsOk (O := O) ar) (hor : OpsReadable (O := O) ar) {M : MinEnv O} {cands prior out inv : Ruleset O}
    {asked : List (Rule O)} {fuel : Nat} (hc : WellFormed cands) (hp : WellFormed prior)
    (htc : ∀ r ∈ Ruleset.iter cands, Rule.Textual r ∧ GoodRule ar r)
    (htp : ∀ r ∈ Ruleset.iter prior, Rule.Textual r ∧ GoodRule ar r)
    (h : Ruleset.minimize D M fuel cands prior = .done out inv asked)
    (hI : ∀ q, q ∈ Ruleset.iter prior ∨ q ∈ Ruleset.iter out → Holds I q) {t u : Tm O} (ht : TmOk ar t) (hu : TmOk ar u)
    {c1 : Ruleset O} (hsub : ∀ n, Named c1 n → Named cands n) (hboth : ProposesBoth c1 t u) (hcov : Covers t u) :
    (∃ q, Relates q t u ∧ GoodRule ar q ∧ Answered M.valid asked false q) ∨
      ∀ env, tmVal env I t = tmVal env I u := by
  obtain ⟨ρ, hinj, hlet, hname, -⟩ := hboth
  obtain ⟨c0, h0m, h0n⟩ := List.mem_map.1 (hname hcov)
  obtain ⟨c, hcm, hcn⟩ := hsub _ ⟨c0, h0m, h0n⟩
  have hce : c = ⟨ruleName (schema ρ t) (schema ρ u), schema ρ t, schema ρ u⟩ := by
    have k1 := readable_schema hor ht fun x hx => hlet x (.inl hx)
    have k2 := readable_schema hor hu fun x hx => hlet x (.inr hx)
    refine Rule.Textual.ext (htc c hcm).1 ⟨⟨rfl, fun v hvv => ?_⟩, k1.1, k2.1, noArrow_printEgg _ k1.2.2,
      noArrow_printEgg _ k2.2.2⟩ hcn
    obtain ⟨x, hx, rfl⟩ := mem_vars_schema.1 hvv
    exact mem_vars_schema.2 ⟨x, hcov x hx, rfl⟩
  have hrel : Relates c t u := by
    rw [hce]
    exact ⟨ρ, hinj, rfl, rfl, rfl⟩
  rcases C23_follows hF hv hc hp htc htp h hI c hcm with hholds | hrej
  · exact .inr ((Relates.holds_iff hrel).1 hholds)
  · exact .inl ⟨c, hrel, (htc c hcm).2, hrej⟩

/-- **C87.** Consider two classes of the e-graph before the exploratory rules are run (`g1`), which those rules merge, or two
classes of the e-graph after them (`g2`), which all rules together merge. If the two extracted terms have finite cost, that is,
are made of allowed operators, and the variables of the second occur in the first, then the validator rejected the rule
between them, or the terms are equal in every algebra in which the prior and the *returned* rules hold (and in which constant
folding is correct). The exploratory rules need not hold there: what they showed about allowed terms has been kept. For `g1`
the same is true of all terms of the two classes, since `g1` is made with prior rules only. -/
theorem C87_complete {I : O → List V → V} {mem : Interval C → V → Prop} (hF : ∀ env, FoldsIn D ar (withVars env I) mem)
    (hS : FoldsSorted D ar) (hv : VarsOk (O := O) ar) (hps : ParsesSorted (O := O) ar) (hor : OpsReadable (O := O) ar)
    {F : FastEnv O C} (hb : ExtractorOk D F.best) (hids : ∀ g, (F.ids g).Perm g.classes)
    (hkeys : ∀ g g' : EGraph O C, ∀ i ∈ F.ids g, g'.find i ∈ F.keys g g') {w : Workload} {prior expl out : Ruleset O}
    {pl ml : Limits} {asked : List (Rule O)} (hp : WellFormed prior)
    (hpr : ∀ r ∈ Ruleset.iter prior, Rule.Textual r ∧ GoodRule ar r) (hex : ∀ r ∈ Ruleset.iter expl, GoodRule ar r)
    (h : runFastForwarding D F w prior expl pl ml = some (out, asked))
    (hI : ∀ q, q ∈ Ruleset.iter prior ∨ q ∈ Ruleset.iter out → Holds I q) :
    ∃ g0 g1 g2 g3, w.toEGraph D F.build = some g0 ∧
      Scheduler.run D F.egAllowed F.isSat (.compress pl)
        (Ruleset.partition F.split (fun r => isAllowedRewrite r.lhs r.rhs) prior).1 F.trAllowed g0 = some g1 ∧
      Scheduler.run D F.egDenote F.isSat (.simple pl) expl F.trDenote g1 = some g2 ∧
      Scheduler.run D F.egFinal F.isSat (.compress pl) (Ruleset.extend prior expl) F.trFinal g2 = some g3 ∧
      (∀ i ∈ g1.classes, ∀ j ∈ g1.classes, g2.find i = g2.find j → (F.best g1 i).1 ≠ usizeMax →
        (F.best g1 j).1 ≠ usizeMax → Covers (F.best g1 i).2 (F.best g1 j).2 →
        (∃ q, Relates q (F.best g1 i).2 (F.best g1 j).2 ∧ GoodRule ar q ∧ Answered F.min.valid asked false q) ∨
        ∀ t u, Rep g1 t i → Rep g1 u j → ∀ env, tmVal env I t = tmVal env I u) ∧
      (∀ i ∈ g2.classes, ∀ j ∈ g2.classes, g3.find i = g3.find j → (F.best g2 i).1 ≠ usizeMax →
        (F.best g2 j).1 ≠ usizeMax → Covers (F.best g2 i).2 (F.best g2 j).2 →
        (∃ q, Relates q (F.best g2 i).2 (F.best g2 j).2 ∧ GoodRule ar q ∧ Answered F.min.valid asked false q) ∨
        ∀ env, tmVal env I (F.best g2 i).2 = tmVal env I (F.best g2 j).2) := by
  obtain ⟨g0, g1, g2, g3, c1, c2, inv, h0, h1, h2, hc1, h3, hc2, hm⟩ := runFastForwarding_some h
  refine ⟨g0, g1, g2, g3, h0, h1, h2, h3, ?_⟩
  by_cases hV : Nonempty V
  swap
  · exact ⟨fun _ _ _ _ _ _ _ _ => .inr fun _ _ _ _ env => absurd ⟨env ""⟩ hV,
      fun _ _ _ _ _ _ _ _ => .inr fun env => absurd ⟨env ""⟩ hV⟩
  let P : Rule O → Prop := fun r => r ∈ Ruleset.iter prior
  let R : Rule O → Prop := fun r => r ∈ Ruleset.iter prior ∨ r ∈ Ruleset.iter expl
  have hin : ∀ r ∈ Ruleset.iter (Ruleset.partition F.split (fun r => isAllowedRewrite r.lhs r.rhs) prior).1, P r := by
    intro r hr
    rw [C17_partition _ _ _ hp] at hr
    obtain ⟨e, he, rfl⟩ := List.mem_map.1 hr
    exact List.mem_map_of_mem (List.mem_of_mem_filter he)
  have hsort : ∀ ss, w.force = some ss → ∀ s ∈ ss, ∀ t : Tm O, Tm.ofSexp s = some t → TmOk ar t :=
    fun ss _ s _ t ht => tmOk_ofSexp hps s t ht
  have p1 : Reach D ar P g1 := .run (toEGraph_reach hv hsort h0) hin h1
  have r1 : Reach D ar R g1 := .run (toEGraph_reach hv hsort h0) (fun r hr => .inl (hin r hr)) h1
  have r2 : Reach D ar R g2 := .run r1 (fun r hr => .inr hr) h2
  have hgood : ∀ r, R r → GoodRule ar r := by
    rintro r (hr | hr)
    · exact (hpr r hr).2
    · exact hex r hr
  have ok1 := FoldsSorted.tmOk hS hgood r1
  have ok2 := FoldsSorted.tmOk hS hgood r2
  have b1 := hb g1 (Reach.any r1)
  have b2 := hb g2 (Reach.any r2)
  have w1 := addPairs_wf hc1
  have w2 := addPairs_wf hc2
  have htc : ∀ q ∈ Ruleset.iter (Ruleset.extend c1 c2), Rule.Textual q ∧ GoodRule ar q := by
    intro q hq
    rcases mem_extend_rules hq with hq | hq
    · exact extract_textual hor (hids g1) b1 ok1 hc1 hq
    · exact extract_textual hor (hids g2) b2 ok2 hc2 hq
  have hsound : ∀ r, P r → GoodRule ar r ∧ Holds I r := fun r hr => ⟨(hpr r hr).2, hI r (.inl hr)⟩
  have hwf := Ruleset.WellFormed.extend w1 w2
  refine ⟨fun i hi j hj hij ci cj hcov => ?_, fun i hi j hj hij ci cj hcov => ?_⟩
  · have key : (∃ q, Relates q (F.best g1 i).2 (F.best g1 j).2 ∧ GoodRule ar q ∧ Answered F.min.valid asked false q) ∨
        ∀ env, tmVal env I (F.best g1 i).2 = tmVal env I (F.best g1 j).2 := by
      by_cases hne : (F.best g1 i).2 = (F.best g1 j).2
      · exact .inr fun env => by rw [hne]
      · exact proposed_holds hF hv hor hwf hp htc hpr hm hI (ok1 _ i (b1 i hi).1) (ok1 _ j (b1 j hj).1)
          (fun n hn => (named_extend w1 w2).2 (.inl hn)) (C36_complete (hkeys g1 g2) hc1 i j ((hids g1).mem_iff.2 hi)
            ((hids g1).mem_iff.2 hj) hij ci cj hne) hcov
    refine key.imp_right fun he t u ht hu env => ?_
    have e1 : tmVal env I t = tmVal env I (F.best g1 i).2 := sound_vars hF hsound p1 ht (b1 i hi).1 rfl env
    have e2 : tmVal env I u = tmVal env I (F.best g1 j).2 := sound_vars hF hsound p1 hu (b1 j hj).1 rfl env
    rw [e1, e2, he env]
  · by_cases hne : (F.best g2 i).2 = (F.best g2 j).2
    · exact .inr fun env => by rw [hne]
    · exact proposed_holds hF hv hor hwf hp htc hpr hm hI (ok2 _ i (b2 i hi).1) (ok2 _ j (b2 j hj).1)
        (fun n hn => (named_extend w1 w2).2 (.inr hn)) (C36_complete (hkeys g2 g3) hc2 i j ((hids g2).mem_iff.2 hi)
          ((hids g2).mem_iff.2 hj) hij ci cj hne) hcov

/-- **C87** (domains without analysis, as the lifting recipes use them). The equation between the two extracted terms is then a
consequence of the prior and the returned rules: it is true in every algebra in which they hold. -/
theorem C87_lifting (hD : NoFold D) (hv : VarsOk (O := O) ar) (hps : ParsesSorted (O := O) ar)
    (hor : OpsReadable (O := O) ar) {F : FastEnv O C} (hb : ExtractorOk D F.best) (hids : ∀ g, (F.ids g).Perm g.classes)
    (hkeys : ∀ g g' : EGraph O C, ∀ i ∈ F.ids g, g'.find i ∈ F.keys g g') {w : Workload} {prior expl out : Ruleset O}
    {pl ml : Limits} {asked : List (Rule O)} (hp : WellFormed prior)
    (hpr : ∀ r ∈ Ruleset.iter prior, Rule.Textual r ∧ GoodRule ar r) (hex : ∀ r ∈ Ruleset.iter expl, GoodRule ar r)
    (h : runFastForwarding D F w prior expl pl ml = some (out, asked)) :
    ∃ g0 g1 g2 g3, w.toEGraph D F.build = some g0 ∧
      Scheduler.run D F.egAllowed F.isSat (.compress pl)
        (Ruleset.partition F.split (fun r => isAllowedRewrite r.lhs r.rhs) prior).1 F.trAllowed g0 = some g1 ∧
      Scheduler.run D F.egDenote F.isSat (.simple pl) expl F.trDenote g1 = some g2 ∧
      Scheduler.run D F.egFinal F.isSat (.compress pl) (Ruleset.extend prior expl) F.trFinal g2 = some g3 ∧
      ∀ a b, (a, b) = (g1, g2) ∨ (a, b) = (g2, g3) → ∀ i ∈ a.classes, ∀ j ∈ a.classes, b.find i = b.find j →
        (F.best a i).1 ≠ usizeMax → (F.best a j).1 ≠ usizeMax → Covers (F.best a i).2 (F.best a j).2 →
        (∃ q, Relates q (F.best a i).2 (F.best a j).2 ∧ Answered F.min.valid asked false q) ∨
        ∀ (V : Type) (I : O → List V → V), (∀ q, q ∈ Ruleset.iter prior ∨ q ∈ Ruleset.iter out → Holds I q) →
          ∀ env, tmVal env I (F.best a i).2 = tmVal env I (F.best a j).2 := by
  obtain ⟨g0, g1, g2, g3, -, -, -, h0, h1, h2, -, h3, -, -⟩ := runFastForwarding_some h
  refine ⟨g0, g1, g2, g3, h0, h1, h2, h3, fun a b hab i hi j hj hij ci cj hcov => ?_⟩
  by_cases hq : ∃ q, Relates q (F.best a i).2 (F.best a j).2 ∧ Answered F.min.valid asked false q
  · exact .inl hq
  refine .inr fun V I hI => ?_
  obtain ⟨k0, k1, k2, k3, e0, e1, e2, e3, hA, hB⟩ := C87_complete (I := I) (fun env => NoFold.foldsIn hD _ _)
    ⟨_, NoFold.foldsIn hD _ _⟩ hv hps hor hb hids hkeys hp hpr hex h hI
  rw [h0] at e0; cases e0
  rw [h1] at e1; cases e1
  rw [h2] at e2; cases e2
  rw [h3] at e3; cases e3
  rcases hab with hab | hab <;> cases hab
  · have hreach : AnyHistory D g1 :=
      .run (toEGraph_reach (ar := fun _ _ => True) (fun s => ⟨(hv s).1, trivial⟩) (fun _ _ _ _ _ _ => TmOk.any _) h0)
        (fun _ _ => trivial) h1
    rcases hA i hi j hj hij ci cj hcov with ⟨q, hr, -, ha⟩ | he
    · exact absurd ⟨q, hr, ha⟩ hq
    · exact he _ _ (hb g1 hreach i hi).1 (hb g1 hreach j hj).1
  · rcases hB i hi j hj hij ci cj hcov with ⟨q, hr, -, ha⟩ | he
    · exact absurd ⟨q, hr, ha⟩ hq
    · exact he

/-! ## Example -/

-- Fast-forwarding over `(+ x y)`, `(+ y x)` with commutativity as exploratory rule, which merges the two classes; the
-- run returns both directions of commutativity (see the example of C53).
example {out : Ruleset NatOp} {asked : List (Rule NatOp)}
    (h : runFastForwarding Sample.freeNat Sample.ffEnv Sample.sums [] Sample.commRules Sample.limits Sample.limits =
      some (out, asked)) := C87_lifting (ar := fun o k => k = o.arity) (D := Sample.freeNat) (F := Sample.ffEnv)
  ⟨fun _ _ _ h => by cases h; rfl, fun _ _ => rfl, fun _ => rfl⟩ Sample.natVarsOk nat_parsesSorted nat_opsReadable
  (fun _ hg _ hi => Sample.extracted_ok extractableCost_laws hg hi) (fun _ => List.Perm.refl _)
  (fun g g' i hi => by simpa [Sample.ffEnv] using ⟨i, hi, rfl⟩) Ruleset.WellFormed.nil
  (by simp [Ruleset.iter]) (by simpa [Ruleset.iter, Sample.commRules] using Sample.addComm_good) h

end Ruler
