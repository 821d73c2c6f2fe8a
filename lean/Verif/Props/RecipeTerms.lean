import Verif.Proofs.RecipeTerms
/-!
# Property C66: the terms that recipes explore
-/
namespace Ruler
open Spec

/-- **C66.** The workload of level `n` of `recursive_rules` is made without panic and lists exactly the terms of the language
that have a variable and whose metric is at most `n`. -/
theorem C66_level {L : RecipeLang} (h : LangOk L) (met : Metric) (n : Nat) (hn : 1 ≤ n) :
    ∃ w ts, recursiveWorkload met n L = some w ∧ w.force = some ts ∧
      ∀ t, t ∈ ts ↔ LangTerm L t ∧ HasWord L.vars t ∧ ∃ m, t.measure met = some m ∧ m ≤ n := by
  obtain ⟨rs, h1, -, h3⟩ := C12_base_lang L.ops.length n met hn
  have hs : AllSets NoEmpty ((iterMetric (baseLang L.ops.length) "EXPR" met n).addFilter (.contains (.lit "VAR"))) :=
    Workload.AllSets.addFilter (iterMetric_sets (baseLang_sets _) _ _ _) _
  obtain ⟨h4, h5⟩ := plugAll_spec hs (langTab_ok h)
  obtain ⟨h6, h7⟩ := Workload.AllSets.force h4
  refine ⟨_, _, recursiveWorkload_words h met n, h6, fun t => ?_⟩
  have hr := Workload.force_some _ _ h1
  have hmem : ∀ s, s ∈ ((iterMetric (baseLang L.ops.length) "EXPR" met n).addFilter (.contains (.lit "VAR"))).forceT ↔
      (Skeleton L.ops.length s ∧ ∃ m, s.measure met = some m ∧ m ≤ n) ∧ Subterm (.atom "VAR") s := by
    intro s
    rw [Workload.forceT_addFilter, List.mem_filter, ← hr, h3]
    simp only [Filter.testT, containsTest_lit]
  constructor
  · intro ht
    obtain ⟨s, hsm, hst⟩ := (h5 t).1 ht
    obtain ⟨⟨hsk, m, hm, hle⟩, hv⟩ := (hmem s).1 hsm
    obtain ⟨k1, k2⟩ := langTerm_of_skeleton h hsk hst
    refine ⟨k1, k2.2 hv, m, ?_, hle⟩
    rw [Sexp.measure_noEmpty met t (h7 t ht), maps_measureT hst, ← Sexp.measure_some _ _ _ hm]
  · rintro ⟨ht, hv, m, hm, hle⟩
    obtain ⟨s, hsk, hst⟩ := skeleton_of_langTerm h ht
    refine (h5 t).2 ⟨s, (hmem s).2 ⟨⟨hsk, m, ?_, hle⟩, (langTerm_of_skeleton h hsk hst).2.1 hv⟩, hst⟩
    have hne : NoEmpty s := by
      rw [← derives_baseLang_iff] at hsk
      exact Derives.noEmpty (Workload.AllSets.force (baseLang_sets L.ops.length)).2 hsk
    rw [Sexp.measure_noEmpty met s hne, ← maps_measureT hst, ← Sexp.measure_some _ _ _ hm]

/-- **C66.** No term is listed twice if no text is listed twice among the values, among the variables, or in one list of
operators. (An operator may be in several lists, as `-` in the Halide recipe.) -/
theorem C66_nodup {L : RecipeLang} (h : LangOk L) (h1 : L.vals.Nodup) (h2 : L.vars.Nodup) (h3 : ∀ os ∈ L.ops, os.Nodup)
    (met : Metric) (n : Nat) (hn : 1 ≤ n) :
    ∃ w ts, recursiveWorkload met n L = some w ∧ w.force = some ts ∧ ts.Nodup := by
  obtain ⟨rs, k1, k2, k3⟩ := C12_base_lang L.ops.length n met hn
  have hs : AllSets NoEmpty ((iterMetric (baseLang L.ops.length) "EXPR" met n).addFilter (.contains (.lit "VAR"))) :=
    Workload.AllSets.addFilter (iterMetric_sets (baseLang_sets _) _ _ _) _
  obtain ⟨h4, -⟩ := plugAll_spec hs (langTab_ok h)
  have hr := Workload.force_some _ _ k1
  refine ⟨_, _, recursiveWorkload_words h met n, (Workload.AllSets.force h4).1, ?_⟩
  refine plugAll_nodup hs ?_ (langTab_ok h) (fun p hp => ?_) fun Q hQ s hs s' hs' t ht ht' => ?_
  · rw [Workload.forceT_addFilter, ← hr]
    exact k2.filter _
  · rcases langTab_mem hp with e | e | e
    · rw [e]; exact h2
    · rw [e]; exact h1
    · exact h3 _ e
  · rw [Workload.forceT_addFilter, ← hr, List.mem_filter, k3] at hs hs'
    exact skeleton_unique (langTab_apart h hQ) hs.1.1 hs'.1.1 ht ht'

end Ruler
