import Verif.Model.Recipes
import Verif.Props.Inference
import Verif.Props.Lifting
import Verif.Proofs.Tables
/-!
# C71: fast-forwarding recipes return exactly the new rules of their runs
-/
namespace Ruler
open Spec EGraph
open scoped List
variable {O C : Type} [Lang O] [LinearOrder C] {D : Domain O C}

omit [Lang O] in
/-- Rules with new names are appended. -/
theorem extend_disjoint {m es : Ruleset O} (hm : WellFormed m) (h : WellFormed es)
    (hd : ∀ q ∈ Ruleset.iter es, ¬ Named m q.name) : Ruleset.extend m es = m ++ es := by
  have key : ∀ (es m : Ruleset O), (∀ e ∈ es, e.1 ∉ m.map Prod.fst) → (es.map Prod.fst).Nodup →
      IndexMap.extend m es = m ++ es := by
    intro es
    induction es with
    | nil => intro m _ _; simp [IndexMap.extend]
    | cons e es ih =>
      intro m hm hn
      rw [List.map_cons, List.nodup_cons] at hn
      have h1 : IndexMap.insert m e.1 e.2 = m ++ [e] := by
        unfold IndexMap.insert
        rw [if_neg]
        rw [IndexMap.containsKey_iff]
        exact hm e (by simp)
      have h2 : IndexMap.extend m (e :: es) = IndexMap.extend (m ++ [e]) es := by
        rw [← h1]; rfl
      rw [h2, ih (m ++ [e]) _ hn.2]
      · simp
      · intro x hx
        rw [List.map_append, List.mem_append]
        rintro (h | h)
        · exact hm x (by simp [hx]) h
        · simp at h
          exact hn.1 (h ▸ List.mem_map_of_mem hx)
  refine key es m (fun e he hk => ?_) h.2
  obtain ⟨x, hx, ex⟩ := List.mem_map.1 hk
  refine hd e.2 (List.mem_map_of_mem he) ⟨x.2, List.mem_map_of_mem hx, ?_⟩
  rw [← hm.1 x hx, ex, h.1 e he]

namespace Spec

/-- The rules that the runs returned, one run after the other. -/
def foundBy (runs : List (Ruleset O × List (Rule O))) : List (Rule O) := runs.flatMap fun r => Ruleset.iter r.1

/-- What is asked of the extraction and of the enumeration of the classes in each run. -/
def RunsOk (D : Domain O C) (steps : List (FastEnv O C × Workload)) : Prop :=
  ∀ st ∈ steps, ExtractorOk D st.1.best ∧ ∀ g, (st.1.ids g).Perm g.classes

end Spec

/-- **C71.** A fast-forwarding recipe performs one run per workload, in order. The prior of each run are the initial rules
followed by all rules found by the earlier runs. The result are the rules given to start with, followed by all rules found, in the order
in which they were found, and no others. Each rule found mentions allowed operators only, was accepted by the validator of its
run, has the name that its sides give it, and a name that no rule known before has. -/
theorem C71_runs (hv : VarsOk (O := O) fun _ _ => True) {expl : Ruleset O} {limits : Limits}
    {steps : List (FastEnv O C × Workload)} (hs : RunsOk D steps) {all new out : Ruleset O} (ha : WellFormed all)
    (hn : WellFormed new) (hsub : ∀ q ∈ Ruleset.iter new, Named all q.name)
    (h : fastRuns D expl limits steps all new = some out) :
    WellFormed out ∧ ∃ runs : List (Ruleset O × List (Rule O)), runs.length = steps.length ∧
      Ruleset.iter out = Ruleset.iter new ++ foundBy runs ∧
      ∀ i F w, steps[i]? = some (F, w) → ∃ known found asked, runs[i]? = some (found, asked) ∧
        WellFormed known ∧ Ruleset.iter known = Ruleset.iter all ++ foundBy (runs.take i) ∧
        runFastForwarding D F w known expl limits limits = some (found, asked) ∧
        ∀ q ∈ Ruleset.iter found, OnlyAllowed q.lhs ∧ OnlyAllowed q.rhs ∧ Answered F.min.valid asked true q ∧
          Rule.Proper q ∧ ¬ Named known q.name := by
  induction steps generalizing all new with
  | nil =>
    simp only [fastRuns, Option.some.injEq] at h
    subst h
    exact ⟨hn, [], rfl, by simp [foundBy], fun i F w hi => by simp at hi⟩
  | cons st steps ih =>
    obtain ⟨F, w⟩ := st
    simp only [fastRuns, Option.bind_eq_some_iff] at h
    obtain ⟨r, hr, h⟩ := h
    obtain ⟨hb, hids⟩ := hs (F, w) (by simp)
    obtain ⟨hw, hq⟩ := C53_allowed hv hb hids ha (show _ = some (r.1, r.2) from hr)
    have hqn : ∀ q ∈ Ruleset.iter r.1, ¬ Named new q.name := by
      rintro q hq' ⟨x, hx, ex⟩
      have := hsub x hx
      rw [ex] at this
      exact (hq q hq').2.2.2.1 this
    have e1 : Ruleset.extend all r.1 = all ++ r.1 := extend_disjoint ha hw fun q h => (hq q h).2.2.2.1
    have e2 : Ruleset.extend new r.1 = new ++ r.1 := extend_disjoint hn hw hqn
    have w1 := Ruleset.WellFormed.extend ha hw
    have w2 := Ruleset.WellFormed.extend hn hw
    have iter_append : ∀ a b : Ruleset O, Ruleset.iter (a ++ b) = Ruleset.iter a ++ Ruleset.iter b := fun a b => by
      simp [Ruleset.iter]
    obtain ⟨ho, runs, hl, hout, hruns⟩ := ih (fun st hst => hs st (by simp [hst])) w1 w2 (fun q hq' => by
      rcases mem_extend_rules hq' with h | h
      · exact (named_extend ha hw).2 (.inl (hsub q h))
      · exact (named_extend ha hw).2 (.inr ⟨q, h, rfl⟩)) h
    refine ⟨ho, r :: runs, by simp [hl], ?_, ?_⟩
    · rw [hout, e2, iter_append, List.append_assoc]
      rfl
    · rintro (_ | i) F' w' hi
      · simp only [List.getElem?_cons_zero, Option.some.injEq, Prod.mk.injEq] at hi
        obtain ⟨rfl, rfl⟩ := hi
        exact ⟨all, r.1, r.2, rfl, ha, by simp [foundBy], hr, fun q h =>
          ⟨(hq q h).1, (hq q h).2.1, (hq q h).2.2.1, (hq q h).2.2.2.2, (hq q h).2.2.2.1⟩⟩
      · obtain ⟨known, found, asked, k1, k2, k3, k4, k5⟩ := hruns i F' w' (by simpa using hi)
        refine ⟨known, found, asked, by simpa using k1, k2, ?_, k4, k5⟩
        rw [k3, e1, iter_append, List.append_assoc]
        rfl

end Ruler
