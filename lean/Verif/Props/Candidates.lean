import Verif.Proofs.Candidates
import Verif.Props.Generalize
import Verif.Props.Saturation
/-!
# Candidate generation: C25, C26, C36
-/
namespace Ruler
open Spec EGraph
variable {O C V : Type} [Lang O]

/-! ## C25 -/

section
variable [DecidableEq C]

/-- **C25.** Every rule `cvec_match` proposes goes from the representative of one class to the representative of a different
class; both classes have a defined sample, their vectors agree wherever both are defined, and all variables of the right
side are bound. -/
theorem C25_sound {g : EGraph O C} {order : List Nat} (ho : order.Perm g.classes) {best : Nat → Tm O} {rs : Ruleset O}
    (h : cvecMatch g order best = some rs) (q : Rule O) (hq : q ∈ Ruleset.iter rs) :
    ∃ i ∈ g.classes, ∃ j ∈ g.classes, i ≠ j ∧ HasSample (g.cvecOf i) ∧ HasSample (g.cvecOf j) ∧
      Agree (g.cvecOf i) (g.cvecOf j) ∧ Relates q (best i) (best j) ∧ Covers (best i) (best j) := by
  unfold cvecMatch at h
  obtain ⟨ps, hp, h⟩ := Option.bind_eq_some_iff.1 h
  obtain ⟨p, hpm, hr⟩ := relates_of_mem h hq
  obtain ⟨⟨i, j⟩, hij, rfl⟩ := List.mem_map.1 hpm
  have hn : order.Nodup := ho.nodup_iff.2 ((List.nodup_range).filter _)
  obtain ⟨hi, hj, hne, si, sj, ha⟩ := cvecPairs_sound hn hp hij
  rcases hr with ⟨hr, hc⟩ | ⟨hr, hc⟩
  · exact ⟨i, ho.mem_iff.1 hi, j, ho.mem_iff.1 hj, hne, si, sj, ha, hr, hc⟩
  · exact ⟨j, ho.mem_iff.1 hj, i, ho.mem_iff.1 hi, hne.symm, sj, si, Agree.symm ha, hr, hc⟩

/-- **C25.** Every two different classes that have a defined sample and whose vectors agree wherever both are defined are
proposed, in each direction the variables permit. -/
theorem C25_complete {g : EGraph O C} {order : List Nat} (ho : order.Perm g.classes) {best : Nat → Tm O} {rs : Ruleset O}
    (h : cvecMatch g order best = some rs) (i j : Nat) (hi : i ∈ g.classes) (hj : j ∈ g.classes) (hij : i ≠ j)
    (si : HasSample (g.cvecOf i)) (sj : HasSample (g.cvecOf j)) (ha : Agree (g.cvecOf i) (g.cvecOf j)) :
    ProposesBoth rs (best i) (best j) := by
  unfold cvecMatch at h
  obtain ⟨ps, hp, h⟩ := Option.bind_eq_some_iff.1 h
  rcases cvecPairs_complete hp (ho.mem_iff.2 hi) (ho.mem_iff.2 hj) hij si sj ha with hm | hm
  · exact proposes_of_mem h (List.mem_map.2 ⟨(i, j), hm, rfl⟩)
  · exact proposes_comm (proposes_of_mem h (List.mem_map.2 ⟨(j, i), hm, rfl⟩))

/-- **C25.** `cvec_match` returns unless some pair of representatives has more than 26 variables. -/
theorem C25_total {g : EGraph O C} {order : List Nat} (ho : order.Perm g.classes) {best : Nat → Tm O}
    (hb : ∀ i ∈ g.classes, ∀ j ∈ g.classes, AtMost 26 (fun x => VarIn x (best i) ∨ VarIn x (best j))) :
    (cvecMatch g order best).isSome := by
  obtain ⟨ps, hp, _⟩ := mem_cvecPairs g.cvecOf order
  unfold cvecMatch
  rw [hp, Option.bind_some]
  refine addPairs_isSome ?_ _
  intro p hpm
  obtain ⟨⟨i, j⟩, hij, rfl⟩ := List.mem_map.1 hpm
  have hn : order.Nodup := ho.nodup_iff.2 ((List.nodup_range).filter _)
  obtain ⟨hi, hj, _⟩ := cvecPairs_sound hn hp hij
  exact (C27_total _ _).2 (hb i (ho.mem_iff.1 hi) j (ho.mem_iff.1 hj))

namespace Sample
/-- Two variables with given vectors. -/
def twoClasses (a b : CVec Int) : EGraph NatOp Int where
  n := 2
  find i := i
  nodes := [(⟨.var "x", []⟩, 0), (⟨.var "y", []⟩, 1)]
  data i := if i = 0 then ⟨a, [], ⟨none, none⟩⟩ else ⟨b, [], ⟨none, none⟩⟩
  cvecLen := 2
/-- Terms of the two classes: `x` and `x + 0`. -/
def twoTerms (i : Nat) : Tm NatOp := if i = 0 then nv "x" else nadd (nv "x") (.node .z [])

-- Equal vectors give both directions; different ones nothing; an undefined first sample is compared with everything.
example : (twoClasses [some 1, some 2] [some 1, some 2]).classes = [0, 1] ∧
    (cvecMatch (twoClasses [some 1, some 2] [some 1, some 2]) [1, 0] twoTerms).map List.length = some 2 ∧
    (cvecMatch (twoClasses [some 1, some 2] [some 1, some 3]) [1, 0] twoTerms).map List.length = some 0 ∧
    (cvecMatch (twoClasses [some 1, some 2] [none, some 2]) [0, 1] twoTerms).map List.length = some 2 := by decide +kernel
end Sample

/-- The comment at the top of `cvec_match` also requires a position at which both vectors are defined (and equal). The code
does not check that: two classes without a common defined sample are proposed. -/
theorem C25_no_overlap : ∃ (a b : CVec Int) (rs : Ruleset NatOp),
    (¬ ∃ (i : Nat) (x y : Int), a[i]? = some (some x) ∧ b[i]? = some (some y)) ∧
    cvecMatch (Sample.twoClasses a b) [0, 1] Sample.twoTerms = some rs ∧ rs ≠ [] := by
  refine ⟨[some 1, none], [none, some 2], _, ?_, Option.eq_some_of_isSome (by decide +kernel), ?_⟩
  · rintro ⟨i, x, y, hx, hy⟩
    rcases i with _ | _ | i <;> simp at hx hy
  · have : ((cvecMatch (Sample.twoClasses [some 1, none] [none, some 2]) [0, 1] Sample.twoTerms).map List.length) =
        some 2 := by decide +kernel
    intro hc
    rw [Option.eq_some_of_isSome (o := cvecMatch (Sample.twoClasses [some 1, none] [none, some 2]) [0, 1] Sample.twoTerms)
      (by decide +kernel), hc] at this
    cases this

/-! ## C26 -/

/-- **C26.** Every rule `fast_cvec_match` proposes relates the representatives of two different classes with the same
vector. -/
theorem C26_sound {g : EGraph O C} {order : List Nat} (ho : order.Perm g.classes) {best : Nat → Tm O} {rs : Ruleset O}
    (h : fastCvecMatch g order best = some rs) (q : Rule O) (hq : q ∈ Ruleset.iter rs) :
    ∃ i ∈ g.classes, ∃ j ∈ g.classes, i ≠ j ∧ g.cvecOf i = g.cvecOf j ∧ (g.cvecOf i = [] ∨ HasSample (g.cvecOf i)) ∧
      Relates q (best i) (best j) ∧ Covers (best i) (best j) := by
  unfold fastCvecMatch at h
  obtain ⟨p, hpm, hr⟩ := relates_of_mem h hq
  obtain ⟨⟨i, j⟩, hij, rfl⟩ := List.mem_map.1 hpm
  have hn : order.Nodup := ho.nodup_iff.2 ((List.nodup_range).filter _)
  obtain ⟨hs, he, hd⟩ := mem_fastPairs.1 hij
  have hne := sublist_pair_ne hn hs
  have hi := ho.mem_iff.1 (sublist_pair_mem hs).1
  have hj := ho.mem_iff.1 (sublist_pair_mem hs).2
  have hd' : g.cvecOf i = [] ∨ HasSample (g.cvecOf i) := by
    by_cases hc : g.cvecOf i = []
    · exact Or.inl hc
    · exact Or.inr (HasSample.of_defined hd hc)
  rcases hr with ⟨hr, hc⟩ | ⟨hr, hc⟩
  · exact ⟨i, hi, j, hj, hne, he, hd', hr, hc⟩
  · exact ⟨j, hj, i, hi, hne.symm, he.symm, he ▸ hd', hr, hc⟩

/-- **C26.** Every two different classes with the same vector that has a defined sample are proposed. -/
theorem C26_complete {g : EGraph O C} {order : List Nat} (ho : order.Perm g.classes) {best : Nat → Tm O} {rs : Ruleset O}
    (h : fastCvecMatch g order best = some rs) (i j : Nat) (hi : i ∈ g.classes) (hj : j ∈ g.classes) (hij : i ≠ j)
    (he : g.cvecOf i = g.cvecOf j) (hs : HasSample (g.cvecOf i)) : ProposesBoth rs (best i) (best j) := by
  unfold fastCvecMatch at h
  have hd : cvecDefined (g.cvecOf i) = true := by simp [cvecDefined, any_isSome_iff.2 hs]
  rcases sublist_pair_or (ho.mem_iff.2 hi) (ho.mem_iff.2 hj) hij with hm | hm
  · exact proposes_of_mem h (List.mem_map.2 ⟨(i, j), mem_fastPairs.2 ⟨hm, he, hd⟩, rfl⟩)
  · exact proposes_comm (proposes_of_mem h (List.mem_map.2 ⟨(j, i), mem_fastPairs.2 ⟨hm, he.symm, he ▸ hd⟩, rfl⟩))

/-- The rule is in the set made from the pairs. -/
theorem addPairs_names {ps : List (Tm O × Tm O)} {rs : Ruleset O} (h : Ruleset.addPairs [] ps = some rs) (n : List Char) :
    n ∈ (Ruleset.iter rs).map Rule.name ↔ ∃ p ∈ ps, n ∈ (dirsOf p).map Rule.name := by
  obtain ⟨_, h2⟩ := addPairs_eq h
  have hw : WellFormed rs := by rw [h2]; exact Ruleset.WellFormed.addAll Ruleset.WellFormed.nil _
  rw [names_eq_keys hw, h2, mem_keys_addAll]
  simp only [List.map_nil, List.not_mem_nil, false_or, List.mem_map, List.mem_flatMap]
  constructor
  · rintro ⟨q, ⟨p, hp, hq⟩, e⟩; exact ⟨p, hp, q, hq, e⟩
  · rintro ⟨p, hp, q, hq, e⟩; exact ⟨q, ⟨p, hp, hq⟩, e⟩

/-- **C26.** If vectors are not empty, `fast_cvec_match` proposes only rules that `cvec_match` proposes too. -/
theorem C26_subset {g : EGraph O C} {order : List Nat} (ho : order.Perm g.classes) {best : Nat → Tm O}
    {fast rs : Ruleset O} (hne : ∀ i ∈ g.classes, g.cvecOf i ≠ []) (hf : fastCvecMatch g order best = some fast)
    (h : cvecMatch g order best = some rs) (n : List Char) (hn : n ∈ (Ruleset.iter fast).map Rule.name) :
    n ∈ (Ruleset.iter rs).map Rule.name := by
  unfold cvecMatch at h
  obtain ⟨ps, hp, h⟩ := Option.bind_eq_some_iff.1 h
  obtain ⟨p, hpm, hq⟩ := (addPairs_names hf n).1 hn
  obtain ⟨ij, hij, rfl⟩ := List.mem_map.1 hpm
  exact (addPairs_names h n).2 ⟨_, List.mem_map.2 ⟨ij,
    fastPairs_sub (fun i hi => hne i (ho.mem_iff.1 hi)) hp ij hij, rfl⟩, hq⟩

/-- **C26.** If vectors are not empty, have the same length and no undefined samples, both functions propose the same
rules. -/
theorem C26_agree {g : EGraph O C} {order : List Nat} (ho : order.Perm g.classes) {best : Nat → Tm O}
    {fast rs : Ruleset O} {len : Nat} (hlen : ∀ i ∈ g.classes, (g.cvecOf i).length = len) (hpos : 0 < len)
    (hd : ∀ i ∈ g.classes, AllDefined (g.cvecOf i)) (hf : fastCvecMatch g order best = some fast)
    (h : cvecMatch g order best = some rs) (n : List Char) :
    n ∈ (Ruleset.iter fast).map Rule.name ↔ n ∈ (Ruleset.iter rs).map Rule.name := by
  refine ⟨C26_subset ho (fun i hi hc => ?_) hf h n, fun hn => ?_⟩
  · have := hlen i hi
    rw [hc] at this
    simp at this
    omega
  · have hnd : order.Nodup := ho.nodup_iff.2 ((List.nodup_range).filter _)
    unfold cvecMatch at h
    obtain ⟨ps, hp, h⟩ := Option.bind_eq_some_iff.1 h
    obtain ⟨p, hpm, hq⟩ := (addPairs_names h n).1 hn
    obtain ⟨ij, hij, rfl⟩ := List.mem_map.1 hpm
    exact (addPairs_names hf n).2 ⟨_, List.mem_map.2 ⟨ij, cvecPairs_sub_fast hnd
      (fun i hi => hlen i (ho.mem_iff.1 hi)) (fun i hi => hd i (ho.mem_iff.1 hi)) hp ij hij, rfl⟩, hq⟩

-- Equal vectors are matched by both functions; vectors that are only compatible by `cvec_match` alone; and empty vectors
-- by `fast_cvec_match` alone (which is why `C26_subset` needs non-empty vectors).
example : (fastCvecMatch (Sample.twoClasses [some 1, some 2] [some 1, some 2]) [1, 0] Sample.twoTerms).map List.length = some 2 ∧
    (fastCvecMatch (Sample.twoClasses [some 1, none] [some 1, some 2]) [1, 0] Sample.twoTerms).map List.length = some 0 ∧
    (cvecMatch (Sample.twoClasses [some 1, none] [some 1, some 2]) [1, 0] Sample.twoTerms).map List.length = some 2 ∧
    (fastCvecMatch (Sample.twoClasses [] []) [1, 0] Sample.twoTerms).map List.length = some 2 ∧
    (cvecMatch (Sample.twoClasses [] []) [1, 0] Sample.twoTerms).map List.length = some 0 := by decide +kernel
end

/-! ## C36 -/

/-- **C36.** Every rule `extract_candidates` proposes contains only allowed operators and relates two different terms that
are represented in the first e-graph and whose classes are merged in the second. -/
theorem C36_sound {g1 g2 : EGraph O C} {ids keys : List Nat} (hids : ids.Perm g1.classes) {best : Nat → Nat × Tm O}
    (hb : ExtractsCost g1 best) {rs : Ruleset O} (h : extractCandidates g2 ids keys best = some rs) (q : Rule O)
    (hq : q ∈ Ruleset.iter rs) :
    OnlyAllowed q.lhs ∧ OnlyAllowed q.rhs ∧ ∃ t u i j, Rep g1 t i ∧ Rep g1 u j ∧ t ≠ u ∧ g2.find i = g2.find j ∧
      Relates q t u ∧ Covers t u := by
  unfold extractCandidates at h
  obtain ⟨p, hpm, hr⟩ := relates_of_mem h hq
  obtain ⟨⟨i, j⟩, hij, rfl⟩ := List.mem_map.1 hpm
  rw [List.mem_filter, mem_extractPairs] at hij
  obtain ⟨⟨hi, hj, hf, _⟩, hc⟩ := hij
  simp only [Bool.and_eq_true, decide_eq_true_eq] at hc
  obtain ⟨ri, ci⟩ := hb i (hids.mem_iff.1 hi)
  obtain ⟨rj, cj⟩ := hb j (hids.mem_iff.1 hj)
  have ai : ∀ ρ, OnlyAllowed (schema ρ (best i).2) := fun ρ => extractable_allowed _ ρ (ci ▸ hc.1.1)
  have aj : ∀ ρ, OnlyAllowed (schema ρ (best j).2) := fun ρ => extractable_allowed _ ρ (cj ▸ hc.1.2)
  rcases hr with ⟨⟨ρ, h1, h2, h3, h4⟩, hv⟩ | ⟨⟨ρ, h1, h2, h3, h4⟩, hv⟩
  · exact ⟨h2 ▸ ai ρ, h3 ▸ aj ρ, _, _, i, j, ri, rj, hc.2, hf, ⟨ρ, h1, h2, h3, h4⟩, hv⟩
  · exact ⟨h2 ▸ aj ρ, h3 ▸ ai ρ, _, _, j, i, rj, ri, fun e => hc.2 e.symm, hf.symm, ⟨ρ, h1, h2, h3, h4⟩, hv⟩

/-- **C36.** Conversely, whenever two classes of the first e-graph are merged in the second, and the extracted terms are
different and contain only allowed operators (finite cost), their rules are proposed. -/
theorem C36_complete {g2 : EGraph O C} {ids keys : List Nat} (hk : ∀ i ∈ ids, g2.find i ∈ keys)
    {best : Nat → Nat × Tm O} {rs : Ruleset O} (h : extractCandidates g2 ids keys best = some rs) (i j : Nat)
    (hi : i ∈ ids) (hj : j ∈ ids) (hij : g2.find i = g2.find j) (ci : (best i).1 ≠ usizeMax) (cj : (best j).1 ≠ usizeMax)
    (hne : (best i).2 ≠ (best j).2) : ProposesBoth rs (best i).2 (best j).2 := by
  unfold extractCandidates at h
  exact proposes_of_mem h (List.mem_map.2 ⟨(i, j), List.mem_filter.2 ⟨mem_extractPairs.2 ⟨hi, hj, hij, hk i hi⟩,
    by simp [ci, cj, hne]⟩, rfl⟩)

variable [LinearOrder C] {D : Domain O C} {ar : O → Nat → Prop} {R : Rule O → Prop}

theorem Reach.any {g : EGraph O C} (h : Reach D ar R g) : AnyHistory D g := by
  induction h with
  | empty => exact .empty
  | setLen k _ ih => exact .setLen k ih
  | addTm _ _ h ih => exact .addTm ih (TmOk.any _) h
  | setCvec i cv _ ih => exact .setCvec i cv ih
  | initVar _ _ h ih => exact .initVar ih trivial h
  | rebuild _ h ih => exact .rebuild ih h
  | run _ _ h ih => exact .run ih (fun _ _ => trivial) h

/-- **C36.** If the second e-graph is the result of running rules on the first, every extracted rule holds in every algebra
in which those rules (and all rules used before) hold. -/
theorem C36_valid {I : O → List V → V} {mem : Interval C → V → Prop} (hF : ∀ env, FoldsIn D ar (withVars env I) mem)
    (hR : ∀ r, R r → GoodRule ar r ∧ Holds I r) {g1 g2 : EGraph O C} (hg : Reach D ar R g1) {E : Egg}
    {isSat : Rule O → Bool} {s : Scheduler} {rules : Ruleset O} (hrules : ∀ r ∈ Ruleset.iter rules, R r)
    {tr : SchedTrace} (hrun : Scheduler.run D E isSat s rules tr g1 = some g2) {ids keys : List Nat}
    (hids : ids.Perm g1.classes) {best : Nat → Nat × Tm O} (hb : ExtractsCost g1 best) {rs : Ruleset O}
    (h : extractCandidates g2 ids keys best = some rs) (q : Rule O) (hq : q ∈ Ruleset.iter rs) : Holds I q := by
  obtain ⟨_, _, t, u, i, j, ht, hu, _, hij, ⟨ρ, _, hl, hr, _⟩, _⟩ := C36_sound hids hb h q hq
  have hgrow := (C30_grows (Reach.any hg) hrun).2
  intro ν
  rw [hl, hr, patVal_schema, patVal_schema]
  exact sound_vars hF hR (.run hg hrules hrun) (hgrow t i ht) (hgrow u j hu) hij _

namespace Sample
/-- Extracted terms of `natStart`: `x`, `y`, `x + y`, `y + x`. -/
def natBest (i : Nat) : Nat × Tm NatOp :=
  match i with
  | 0 => (1, nx)
  | 1 => (1, ny)
  | 2 => (3, nxy)
  | _ => (3, nyx)

-- Running commutativity on `x + y`, `y + x` merges the two; two rules are extracted, and they are valid.
example : ∃ (g1 g2 : EGraph NatOp Int) (rs : Ruleset NatOp), natStart = some g1 ∧ natOut (.simple limits) = some g2 ∧
    ExtractsCost g1 natBest ∧ extractCandidates g2 g1.classes [0, 1, 3] natBest = some rs ∧ rs.length = 2 ∧
    ∀ q ∈ Ruleset.iter rs, Holds natOpVal q := by
  have h : (natStart.bind fun g1 => (natOut (.simple limits)).bind fun g2 =>
      (extractCandidates g2 g1.classes [0, 1, 3] natBest).map fun rs =>
        (g1.classes, [nx, ny, nxy, nyx].map g1.lookupTm, rs.length)) =
      some ([0, 1, 2, 3], [some 0, some 1, some 2, some 3], 2) := by decide +kernel
  rw [Option.bind_eq_some_iff] at h
  obtain ⟨g1, h1, h⟩ := h
  rw [Option.bind_eq_some_iff] at h
  obtain ⟨g2, h2, h⟩ := h
  rw [Option.map_eq_some_iff] at h
  obtain ⟨rs, h3, h⟩ := h
  simp only [Prod.mk.injEq, List.map_cons, List.map_nil, List.cons.injEq, and_true] at h
  obtain ⟨hc, ⟨l0, l1, l2, l3⟩, hlen⟩ := h
  have hr : Reach natDom (fun o k => k = o.arity) (fun r => r = addComm) g1 := reach_termsToEGraph natVarsOk terms_ok h1
  obtain ⟨val, hI⟩ := AnyHistory.inv (Reach.any hr)
  have hx : ExtractsCost g1 natBest := by
    intro i hi
    rw [hc] at hi
    simp only [List.mem_cons, List.not_mem_nil, or_false] at hi
    rcases hi with rfl | rfl | rfl | rfl
    · exact ⟨(lookupTm_rep hI _ _ l0).1, by decide⟩
    · exact ⟨(lookupTm_rep hI _ _ l1).1, by decide⟩
    · exact ⟨(lookupTm_rep hI _ _ l2).1, by decide⟩
    · exact ⟨(lookupTm_rep hI _ _ l3).1, by decide⟩
  have hrun : Scheduler.run natDom egg (fun _ => false) (.simple limits) commRules trace g1 = some g2 := by
    have := h2
    unfold natOut at this
    rw [h1] at this
    exact this
  refine ⟨g1, g2, rs, h1, h2, hx, h3, hlen, ?_⟩
  exact C36_valid (nat_folds _) (fun r hr => by subst hr; exact ⟨addComm_good, addComm_holds⟩) hr
    (by simp [Ruleset.iter, commRules]) hrun (List.Perm.refl _) hx h3
end Sample

end Ruler
