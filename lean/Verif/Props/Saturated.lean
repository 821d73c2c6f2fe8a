import Verif.Proofs.Saturated
import Verif.Props.Derive
import Verif.Props.Compress
import Verif.Model.DomBvBool
import Verif.Model.DomCad
import Verif.Model.DomExp
import Verif.Model.DomMaxMin
import Verif.Model.DomPos
import Verif.Model.DomTrig
/-!
# Saturated e-graphs decide equality: C79
-/
namespace Ruler
open Spec EGraph
variable {O C V : Type} [Lang O] [LinearOrder C] {D : Domain O C} {ar : O → Nat → Prop}

omit [Lang O] in
theorem anyRules (rs : List (Rule O)) : RulesOk (fun _ _ => True) (fun _ (_ : List Unit) => ()) rs :=
  fun _ _ => ⟨⟨PatOk.any _, PatOk.any _⟩, fun _ => rfl⟩

/-- **C79.** In a saturated e-graph — no application of a rule adds or unites a class — whose classes all have a defined sample, a term is found in the
same class as everything it can be rewritten to, however many steps that takes; in particular those terms are there. -/
theorem C79_rewrites {g : EGraph O C} (hg : AnyHistory D g) (hc : g.closed = true)
    (hd : ∀ i, i < g.n → (g.dataOf i).isDefined = true) {E : Egg} {R : Rule O → Prop} (hs : Saturated D E R g) {t u : Tm O} {i : Nat}
    (ht : g.lookupTm t = some i) (h : RewritesTo R t u) : g.lookupTm u = some i := by
  obtain ⟨val, hI⟩ := AnyHistory.inv hg
  obtain ⟨h1, h2⟩ := lookupTm_rep hI _ _ ht
  rw [rep_lookupTm hI hc u i (saturated_reps hI hc hd hs h h1), h2]

theorem derive_start (hD : EmptyVectors D) {E : Egg} {ty : DeriveType} {l r : Tm O} {g : EGraph O C}
    (h : deriveStart D E ty l r = some g) :
    ∃ val, InvS (emptySide (O := O)) (fun _ _ => True) (fun _ _ => ()) (fun s _ => s.cvec = []) g val ∧
      (∃ i, Rep g l i) ∧ (ty = .lhsAndRhs → ∃ j, Rep g r j) := by
  cases ty with
  | lhs =>
    rw [deriveStart, Option.map_eq_some_iff] at h
    obtain ⟨⟨g1, i⟩, h1, rfl⟩ := h
    obtain ⟨v1, I1, _, _, _, _, r1⟩ := addTm_ok (emptyInv hD) (TmOk.any l) empty_start h1
    exact ⟨v1, I1, ⟨i, r1⟩, by simp⟩
  | lhsAndRhs =>
    rw [deriveStart, Option.bind_eq_some_iff] at h
    obtain ⟨⟨g1, i⟩, h1, h⟩ := h
    rw [Option.map_eq_some_iff] at h
    obtain ⟨⟨g2, j⟩, h2, rfl⟩ := h
    obtain ⟨v1, I1, _, l1, _, _, r1⟩ := addTm_ok (emptyInv hD) (TmOk.any l) empty_start h1
    obtain ⟨v2, I2, E2, _, _, _, r2⟩ := addTm_ok (emptyInv hD) (TmOk.any r) I1 h2
    exact ⟨v2, I2, ⟨i, Rep.ext I1 E2 _ _ l1 r1⟩, fun _ => ⟨j, r2⟩⟩

/-- **C79 (derivability).** If the run of `can_derive` ends in a saturated e-graph, then the answer is yes whenever the left side can be rewritten to the
right side, and, when both sides were inserted, whenever both can be rewritten to a common term. -/
theorem C79_derive (hD : EmptyVectors D) {rs : Ruleset O} {r : Rule O} {E E' : Egg} {isSat : Rule O → Bool} {ty : DeriveType}
    {limits : Limits} {t : SchedTrace} {g out : EGraph O C} (hg : deriveStart D E ty r.lhs.instantiate r.rhs.instantiate = some g)
    (hout : Scheduler.run D E isSat (.saturating limits) rs t g = some out) (hs : Saturated D E' (· ∈ Ruleset.iter rs) out)
    (h : RewritesTo (· ∈ Ruleset.iter rs) r.lhs.instantiate r.rhs.instantiate ∨
      (ty = .lhsAndRhs ∧ Meets (· ∈ Ruleset.iter rs) r.lhs.instantiate r.rhs.instantiate)) :
    Ruleset.canDerive D E isSat ty limits t rs r = some true := by
  obtain ⟨val, hI, ⟨i, hi⟩, hj⟩ := derive_start hD hg
  obtain ⟨⟨v1, I1, E1⟩, hc⟩ := run_ok (emptyInv hD) (anyRules _) hI hout
  have hreach : AnyHistory D out := .run (deriveStart_reach (TmOk.any _) (TmOk.any _) hg) (fun _ _ => trivial) hout
  obtain ⟨v2, I2⟩ := AnyHistory.inv hreach
  have hd := empty_defined I1
  have hi' := Rep.ext hI E1 _ _ (Rep.lt hI hi) hi
  have key : ∃ k, out.lookupTm r.lhs.instantiate = some k ∧ out.lookupTm r.rhs.instantiate = some k := by
    rcases h with h | ⟨hty, w, h1, h2⟩
    · exact ⟨_, rep_lookupTm I2 hc _ _ hi', rep_lookupTm I2 hc _ _ (saturated_reps I2 hc hd hs h hi')⟩
    · obtain ⟨j, hj⟩ := hj hty
      have hj' := Rep.ext hI E1 _ _ (Rep.lt hI hj) hj
      refine ⟨_, rep_lookupTm I2 hc _ _ hi', ?_⟩
      rw [rep_unique I2 hc (saturated_reps I2 hc hd hs h1 hi') (saturated_reps I2 hc hd hs h2 hj')]
      exact rep_lookupTm I2 hc _ _ hj'
  obtain ⟨k, k1, k2⟩ := key
  rw [Ruleset.canDerive, hg, Option.bind_some, hout, Option.bind_some, k1, k2]
  simp

/-- **C79 (derivability, exact).** Without constant folding, and if the rules can be read in both directions, a saturated run of `can_derive` decides: the
answer is yes exactly for the equations that can be proved from the rules. -/
theorem C79_exact (hD : NoFold D) (hE : EmptyVectors D) (hv : VarsOk (O := O) ar) {rs : Ruleset O}
    (hR : ∀ q ∈ Ruleset.iter rs, GoodRule ar q) (hrev : Reversible (· ∈ Ruleset.iter rs)) {r : Rule O} (hr : GoodRule ar r)
    {E E' : Egg} {isSat : Rule O → Bool} {ty : DeriveType} {limits : Limits} {t : SchedTrace} {g out : EGraph O C}
    (hg : deriveStart D E ty r.lhs.instantiate r.rhs.instantiate = some g)
    (hout : Scheduler.run D E isSat (.saturating limits) rs t g = some out) (hs : Saturated D E' (· ∈ Ruleset.iter rs) out) :
    ∃ b, Ruleset.canDerive D E isSat ty limits t rs r = some b ∧
      (b = true ↔ Provable (· ∈ Ruleset.iter rs) (fun _ _ => False) r.lhs.instantiate r.rhs.instantiate) := by
  have hsome : ∃ b, Ruleset.canDerive D E isSat ty limits t rs r = some b := by
    obtain ⟨val, hI, ⟨i, hi⟩, _⟩ := derive_start hE hg
    obtain ⟨⟨v1, I1, E1⟩, hc⟩ := run_ok (emptyInv hE) (anyRules _) hI hout
    have := rep_lookupTm I1 hc _ _ (Rep.ext hI E1 _ _ (Rep.lt hI hi) hi)
    rw [Ruleset.canDerive, hg, Option.bind_some, hout, Option.bind_some, this]
    exact ⟨_, rfl⟩
  obtain ⟨b, hb⟩ := hsome
  refine ⟨b, hb, fun h => ?_, fun h => ?_⟩
  · subst h
    exact provable_of_holds (C32_consequence hD hv hR hr hb _ _ fun q hq => holds_provOp hq)
  · rw [C79_derive hE hg hout hs (.inl ((provable_iff_rewritesTo hrev).1 h))] at hb
    exact (Option.some.inj hb).symm

/-- **C79.** The domains of the repository meet the condition on vectors of length zero. -/
theorem C79_domains (rnd : Nat → Nat → Nat) (N : Nat) (ck : Checked) :
    EmptyVectors boolDomain ∧ EmptyVectors (natDomain rnd) ∧ EmptyVectors (bvDomain N) ∧ EmptyVectors halideDomain ∧
      EmptyVectors (rationalDomain ck) ∧ EmptyVectors cadDomain ∧ EmptyVectors expDomain ∧ EmptyVectors maxMinDomain ∧
      EmptyVectors posDomain ∧ EmptyVectors trigDomain ∧ EmptyVectors bvBoolDomain := by
  refine ⟨?_, ?_, ?_, ?_, ?_, ?_, ?_, ?_, ?_, ?_, ?_⟩
  · intro o vs v hv h
    cases h
    unfold BoolOp.eval
    split <;> simp_all [cmap1, cmap2]
  · intro o vs v hv h
    cases h
    unfold NatOp.eval
    split <;> simp_all [cmap1, cmap2]
  · intro o vs v hv h
    cases h
    unfold BvOp.eval
    split <;> simp_all [cmap1, cmap2]
  · intro o vs v hv h
    change o.eval 0 vs = some v at h
    unfold PredOp.eval at h
    split at h <;> simp_all [cmapP1, cmapP2, cmapP3]
  · intro o vs v hv h
    change o.eval ck 0 vs = some v at h
    unfold MathOp.eval at h
    split at h <;> simp_all [cmap2, cmapP1]
  all_goals
    intro o vs v hv h
    cases h
    rfl

namespace Sample
/-- `(+ ?a ?b) ==> ?a` -/
def predFst : Rule PredOp := ⟨"f".toList, .node .add [.var "?a", .var "?b"], .var "?a"⟩

/-- The ruleset with only commutativity. -/
def predRules : Ruleset PredOp := [(predComm.name, predComm)]

theorem pred_reversible : Reversible (· ∈ Ruleset.iter predRules) := by
  intro r hr σ
  have : r = predComm := by simpa [Ruleset.iter, predRules] using hr
  subst this
  exact ⟨predComm, fun v => if v = "?a" then σ "?b" else σ "?a", hr, by simp [predComm, patInst, patInstL], by simp [predComm, patInst, patInstL]⟩

theorem pred_good : ∀ q ∈ Ruleset.iter predRules, GoodRule (fun (o : PredOp) k => k = o.arity) q := by
  intro r hr
  have : r = predComm := by simpa [Ruleset.iter, predRules] using hr
  subst this
  refine ⟨⟨.node rfl ?_, .node rfl ?_⟩, .node rfl ?_, .node rfl ?_⟩ <;> intro a ha <;>
    rcases List.mem_cons.1 ha with rfl | ha <;> first
      | exact .var
      | exact .var (by decide)
      | (rcases List.mem_singleton.1 ha with rfl; first | exact .var | exact .var (by decide))

theorem predFst_good : GoodRule (fun (o : PredOp) k => k = o.arity) predFst := by
  refine ⟨⟨.node rfl ?_, .var⟩, .node rfl ?_, .var (by decide)⟩ <;> intro a ha <;>
    rcases List.mem_cons.1 ha with rfl | ha <;> first
      | exact .var
      | exact .var (by decide)
      | (rcases List.mem_singleton.1 ha with rfl; first | exact .var | exact .var (by decide))

-- `(+ ?a ?b) ==> ?a` cannot be proved from `(+ ?a ?b) ==> (+ ?b ?a)`: the run of `can_derive` saturates and answers no.
example : ¬ Provable (· ∈ Ruleset.iter predRules) (fun _ _ => False) predFst.lhs.instantiate predFst.rhs.instantiate := by
  have h : ((deriveStart halideDomain egg .lhsAndRhs predFst.lhs.instantiate predFst.rhs.instantiate).any fun g =>
      (Scheduler.run halideDomain egg (fun _ => false) (.saturating limits) predRules trace g).any
        (saturatedB halideDomain egg (Ruleset.iter predRules))) = true ∧
      Ruleset.canDerive halideDomain egg (fun _ => false) .lhsAndRhs limits trace predRules predFst = some false := by
    decide +kernel
  obtain ⟨h, hno⟩ := h
  rw [Option.any_eq_true] at h
  obtain ⟨g, hg, h⟩ := h
  rw [Option.any_eq_true] at h
  obtain ⟨out, ho, h⟩ := h
  obtain ⟨b, hb, hiff⟩ := C79_exact halide_noFold (C79_domains (fun _ _ => 0) 4 exactRat).2.2.2.1 (ar := fun (o : PredOp) k => k = o.arity)
    (fun _ => ⟨rfl, rfl⟩) pred_good pred_reversible predFst_good hg ho (saturatedB_ok h)
  rw [hno] at hb
  cases hb
  simpa using hiff
end Sample

/-! ## Shrinking -/

private theorem sides_reps {S : Side O} {ok : Signature O C → Unit → Prop} (hD : DataInvS S D (fun _ _ => True) (fun _ _ => ()) ok) {E : Egg}
    (rs : List (Rule O)) {g g' : EGraph O C} {val : Nat → Unit} {l : List (Nat × Nat × Rule O)}
    (hg : InvS S (fun _ _ => True) (fun _ _ => ()) ok g val) (h : insertSides D E rs g = some (g', l)) :
    ∃ val', InvS S (fun _ _ => True) (fun _ _ => ()) ok g' val' ∧ Ext g val g' val' ∧
      ∀ x ∈ l, Rep g' x.2.2.lhs.instantiate x.1 ∧ Rep g' x.2.2.rhs.instantiate x.2.1 := by
  induction rs generalizing g val l with
  | nil => cases h; exact ⟨val, hg, Ext.refl _ _, by simp⟩
  | cons r rs ih =>
    rw [insertSides, Option.bind_eq_some_iff] at h
    obtain ⟨⟨g1, i⟩, h1, h⟩ := h
    rw [Option.bind_eq_some_iff] at h
    obtain ⟨⟨g2, j⟩, h2, h⟩ := h
    rw [Option.map_eq_some_iff] at h
    obtain ⟨⟨g3, l'⟩, h3, h⟩ := h
    cases h
    obtain ⟨v1, I1, E1, l1, _, _, r1⟩ := addTm_ok hD (TmOk.any _) hg h1
    obtain ⟨v2, I2, E2, l2, _, _, r2⟩ := addTm_ok hD (TmOk.any _) I1 h2
    obtain ⟨v3, I3, E3, h4⟩ := ih I2 h3
    refine ⟨v3, I3, Ext.trans hg I1 E1 (Ext.trans I1 I2 E2 E3), ?_⟩
    intro x hx
    rcases List.mem_cons.1 hx with rfl | hx
    · exact ⟨Rep.ext I2 E3 _ _ (Nat.lt_of_lt_of_le l1 E2.n_le) (Rep.ext I1 E2 _ _ l1 r1), Rep.ext I2 E3 _ _ l2 r2⟩
    · exact h4 x hx

private theorem sides_history {E : Egg} (rs : List (Rule O)) {g g' : EGraph O C} {l : List (Nat × Nat × Rule O)} (hg : AnyHistory D g)
    (h : insertSides D E rs g = some (g', l)) : AnyHistory D g' := by
  induction rs generalizing g l with
  | nil => cases h; exact hg
  | cons r rs ih =>
    rw [insertSides, Option.bind_eq_some_iff] at h
    obtain ⟨⟨g1, i⟩, h1, h⟩ := h
    rw [Option.bind_eq_some_iff] at h
    obtain ⟨⟨g2, j⟩, h2, h⟩ := h
    rw [Option.map_eq_some_iff] at h
    obtain ⟨⟨g3, l'⟩, h3, h⟩ := h
    cases h
    exact ih (.addTm (.addTm hg (TmOk.any _) h1) (TmOk.any _) h2) h3

/-- What `shrink` keeps has two sides in different classes. -/
private theorem shrink_kept {E : Egg} {isSat : Rule O → Bool} {s : Scheduler} {t : SchedTrace} {cands chosen rest : Ruleset O}
    (h : Ruleset.shrink D E isSat s t cands chosen = some rest) {r : Rule O} (hr : r ∈ Ruleset.iter rest) :
    ∃ g l g' x, insertSides D E (Ruleset.iter cands) EGraph.empty = some (g, l) ∧ Scheduler.run D E isSat s chosen t g = some g' ∧
      x ∈ l ∧ x.2.2 = r ∧ g'.find x.1 ≠ g'.find x.2.1 := by
  unfold Ruleset.shrink at h
  rw [Option.bind_eq_some_iff] at h
  obtain ⟨⟨g, l⟩, hg, h⟩ := h
  rw [Option.map_eq_some_iff] at h
  obtain ⟨g', hg', h⟩ := h
  simp only at h hg'
  rw [foldl_add_filter (fun x => g'.find x.1 = g'.find x.2.1)] at h
  rw [← h] at hr
  rcases mem_iter_addAll _ _ _ hr with hr | hr
  · simp [Ruleset.iter] at hr
  · obtain ⟨x, hx, hxr⟩ := List.mem_map.1 hr
    obtain ⟨hx1, hx2⟩ := List.mem_filter.1 hx
    exact ⟨g, l, g', x, hg, hg', hx1, hxr, by simpa using hx2⟩

private theorem meets_find {g out : EGraph O C} (hE : EmptyVectors D) {E E' : Egg} {isSat : Rule O → Bool} {s : Scheduler} {t : SchedTrace}
    {cands chosen : Ruleset O} {l : List (Nat × Nat × Rule O)} (hg : insertSides D E (Ruleset.iter cands) EGraph.empty = some (g, l))
    (hrun : Scheduler.run D E isSat s chosen t g = some out) (hs : Saturated D E' (· ∈ Ruleset.iter chosen) out)
    {x : Nat × Nat × Rule O} (hx : x ∈ l) (hm : Meets (· ∈ Ruleset.iter chosen) x.2.2.lhs.instantiate x.2.2.rhs.instantiate) :
    out.find x.1 = out.find x.2.1 := by
  obtain ⟨v1, I1, _, h1⟩ := sides_reps (emptyInv hE) _ empty_start hg
  obtain ⟨⟨v2, I2, E2⟩, hc⟩ := run_ok (emptyInv hE) (anyRules _) I1 hrun
  obtain ⟨v3, I3, _, _⟩ := sides_reps (unitInv D) _ (Inv.empty _ _ _ fun _ => ()) hg
  obtain ⟨⟨v4, I4, _⟩, _⟩ := run_ok (unitInv D) (anyRules _) I3 hrun
  obtain ⟨r1, r2⟩ := h1 x hx
  obtain ⟨w, m1, m2⟩ := hm
  have hd := empty_defined I2
  exact rep_unique I4 hc (saturated_reps I4 hc hd hs m1 (Rep.ext I1 E2 _ _ (Rep.lt I1 r1) r1))
    (saturated_reps I4 hc hd hs m2 (Rep.ext I1 E2 _ _ (Rep.lt I1 r2) r2))

/-- **C79 (shrinking).** If running the chosen rules saturates, then `shrink` with that scheduler keeps no candidate whose sides can be rewritten, by the
chosen rules, to a common term. -/
theorem C79_shrink (hE : EmptyVectors D) {cands chosen rest : Ruleset O} {E E' : Egg} {isSat : Rule O → Bool} {s : Scheduler}
    {t : SchedTrace} (h : Ruleset.shrink D E isSat s t cands chosen = some rest)
    (hs : ∀ g l out, insertSides D E (Ruleset.iter cands) EGraph.empty = some (g, l) → Scheduler.run D E isSat s chosen t g = some out →
      Saturated D E' (· ∈ Ruleset.iter chosen) out) :
    ∀ r ∈ Ruleset.iter rest, ¬ Meets (· ∈ Ruleset.iter chosen) r.lhs.instantiate r.rhs.instantiate := by
  intro r hr hm
  obtain ⟨g, l, g', x, hg, hg', hx, rfl, hne⟩ := shrink_kept h hr
  exact hne (meets_find hE hg hg' (hs g l g' hg hg') hx hm)

/-- **C79 (shrinking, compressing).** The same for the compressing scheduler that `minimize` uses, without constant folding: it is enough that the rules
saturate in the copy it runs them in. -/
theorem C79_compress (hD : NoFold D) (hE : EmptyVectors D) {cands chosen rest : Ruleset O} {E E' : Egg} {isSat : Rule O → Bool} {lim : Limits}
    {t : SchedTrace} (hord : ∀ ks, (t.order ks).Perm ks) (h : Ruleset.shrink D E isSat (.compress lim) t cands chosen = some rest)
    (hs : ∀ g l out, insertSides D E (Ruleset.iter cands) EGraph.empty = some (g, l) →
      Scheduler.run D E isSat (.simple lim) chosen t g = some out → Saturated D E' (· ∈ Ruleset.iter chosen) out) :
    ∀ r ∈ Ruleset.iter rest, ¬ Meets (· ∈ Ruleset.iter chosen) r.lhs.instantiate r.rhs.instantiate := by
  intro r hr hm
  obtain ⟨g, l, g', x, hg, hg', hx, rfl, hne⟩ := shrink_kept h hr
  have hreach : AnyHistory D g := sides_history _ .empty hg
  obtain ⟨out, ho, _, _, _, _, hf⟩ := C31_compress hD hreach hord hg'
  obtain ⟨v1, I1, _, h1⟩ := sides_reps (unitInv D) _ (Inv.empty _ _ _ fun _ => ()) hg
  obtain ⟨r1, r2⟩ := h1 x hx
  exact hne ((hf _ _ (Rep.lt I1 r1) (Rep.lt I1 r2)).2 (meets_find hE hg ho (hs g l out hg ho) hx hm))

/-- **C79 (shrinking, exact).** Without constant folding, and if the chosen rules can be read in both directions and saturate, `shrink` keeps exactly the
candidates that cannot be proved from the chosen rules. -/
theorem C79_shrink_exact (hD : NoFold D) (hE : EmptyVectors D) (hv : VarsOk (O := O) ar) {cands chosen rest : Ruleset O} (hw : WellFormed cands)
    (hc : ∀ r ∈ Ruleset.iter cands, GoodRule ar r) (hR : ∀ q ∈ Ruleset.iter chosen, GoodRule ar q) (hrev : Reversible (· ∈ Ruleset.iter chosen))
    {E E' : Egg} {isSat : Rule O → Bool} {lim : Limits} {s : Scheduler} (hsch : s = .simple lim ∨ s = .compress lim)
    {t : SchedTrace} (hord : ∀ ks, (t.order ks).Perm ks) (h : Ruleset.shrink D E isSat s t cands chosen = some rest)
    (hs : ∀ g l out, insertSides D E (Ruleset.iter cands) EGraph.empty = some (g, l) →
      Scheduler.run D E isSat (.simple lim) chosen t g = some out → Saturated D E' (· ∈ Ruleset.iter chosen) out) (r : Rule O) :
    r ∈ Ruleset.iter rest ↔ r ∈ Ruleset.iter cands ∧
      ¬ Provable (· ∈ Ruleset.iter chosen) (fun _ _ => False) r.lhs.instantiate r.rhs.instantiate := by
  have h34 := C34_sound (I := provOp (· ∈ Ruleset.iter chosen) fun _ _ => False) (fun _ => NoFold.foldsIn hD ar _) hv hw hc
    (fun q hq => ⟨hR q hq, holds_provOp hq⟩) h
  refine ⟨fun hr => ⟨h34.1 r hr, fun hp => ?_⟩, fun ⟨h1, h2⟩ => ?_⟩
  · have hm : Meets (· ∈ Ruleset.iter chosen) r.lhs.instantiate r.rhs.instantiate :=
      ⟨_, (provable_iff_rewritesTo hrev).1 hp, .refl⟩
    rcases hsch with rfl | rfl
    · exact C79_shrink hE h hs r hr hm
    · exact C79_compress hD hE hord h hs r hr hm
  · by_contra hn
    exact h2 (provable_of_holds (h34.2 r h1 hn))

-- Of `(+ ?a ?b) ==> (+ ?b ?a)` and `(+ ?a ?b) ==> ?a` the second stays, and running the first saturates.
example : (Ruleset.shrink halideDomain Sample.egg (fun _ => false) (.compress Sample.limits) Sample.trace
      (Ruleset.extend Sample.predRules [(Sample.predFst.name, Sample.predFst)]) Sample.predRules).map (fun p => p.map fun e => e.1.length) =
      some [1] ∧
    ((insertSides halideDomain Sample.egg (Ruleset.iter (Ruleset.extend Sample.predRules [(Sample.predFst.name, Sample.predFst)]))
      EGraph.empty).any fun g =>
      (Scheduler.run halideDomain Sample.egg (fun _ => false) (.simple Sample.limits) Sample.predRules Sample.trace g.1).any
        (saturatedB halideDomain Sample.egg (Ruleset.iter Sample.predRules))) = true := by decide +kernel

end Ruler
