import Verif.Props.Progress
import Verif.Props.RecipeWorkloads
/-!
# C72: whole recipes do not panic
-/
namespace Ruler
open Spec

section
variable {O : Type} [Lang O]

/-- A word is read, and if it is read as a variable it is one of the variables of the language. -/
def wordCheck (O : Type) [Lang O] (vars : List String) (a : String) (k : Nat) : Bool :=
  match (Lang.fromOp a k : Option O) with
  | some o => match Lang.toVar o with
    | some x => decide (x ∈ vars)
    | none => true
  | none => false

/-- `wordCheck` for all words of a language. -/
def varsCheck (O : Type) [Lang O] (vals vars : List String) (ops : List (List String)) : Bool :=
  (vals ++ vars).all (wordCheck O vars · 0) && ops.zipIdx.all fun p => p.1.all (wordCheck O vars · (p.2 + 1))

theorem wordCheck_of {vals vars : List String} {ops : List (List String)} (h : varsCheck O vals vars ops = true) {a : String}
    {k : Nat} (hk : kindCheck vals vars ops (a, k) = true) : wordCheck O vars a k = true := by
  rw [varsCheck, Bool.and_eq_true, List.all_eq_true, List.all_eq_true] at h
  cases k with
  | zero =>
    simp only [kindCheck, decide_eq_true_eq] at hk
    exact h.1 a hk
  | succ k =>
    simp only [kindCheck] at hk
    split at hk
    · rename_i os hos
      rw [decide_eq_true_eq] at hk
      have := h.2 (os, k) (by rw [List.mem_zipIdx_iff_getElem?]; exact hos)
      rw [List.all_eq_true] at this
      exact this a hk
    · cases hk

theorem wordCheck_read {vars : List String} {a : String} {k : Nat} (h : wordCheck O vars a k = true) :
    ∃ o : O, Lang.fromOp a k = some o ∧ ∀ x, Lang.toVar o = some x → x ∈ vars := by
  unfold wordCheck at h
  split at h
  · rename_i o ho
    refine ⟨o, ho, fun x hx => ?_⟩
    rw [hx] at h
    simpa using h
  · cases h

theorem kinded_vars {vars : List String} {H : String → Nat → Prop} (hH : ∀ a k, H a k → wordCheck O vars a k = true) {s : Sexp}
    (hs : Kinded H s) : ∃ t : Tm O, Tm.ofSexp s = some t ∧ ∀ x, HasVar x t → x ∈ vars := by
  induction hs with
  | atom h =>
    obtain ⟨o, ho, hx⟩ := wordCheck_read (hH _ _ h)
    refine ⟨.node o [], by rw [Tm.ofSexp, ho]; rfl, fun x h => ?_⟩
    cases h with
    | here h => exact hx x h
    | there h _ => cases h
  | @app o args hne h hargs ih =>
    obtain ⟨o', ho, hx⟩ := wordCheck_read (hH _ _ h)
    have hL : ∀ l : List Sexp, (∀ a ∈ l, ∃ t : Tm O, Tm.ofSexp a = some t ∧ ∀ x, HasVar x t → x ∈ vars) →
        ∃ ts : List (Tm O), Tm.ofSexpL l = some ts ∧ ts.length = l.length ∧ ∀ t ∈ ts, ∀ x, HasVar x t → x ∈ vars := by
      intro l
      induction l with
      | nil => exact fun _ => ⟨[], rfl, rfl, by simp⟩
      | cons a l ih =>
        intro h
        obtain ⟨t, h1, h2⟩ := h a (by simp)
        obtain ⟨ts, h3, h4, h5⟩ := ih fun a ha => h a (by simp [ha])
        refine ⟨t :: ts, by rw [Tm.ofSexpL, h1, h3]; rfl, by simp [h4], fun t' ht' => ?_⟩
        rcases List.mem_cons.1 ht' with rfl | ht'
        · exact h2
        · exact h5 t' ht'
    obtain ⟨ts, h1, h2, h3⟩ := hL args ih
    refine ⟨.node o' ts, by rw [Tm.ofSexp, h1, Option.bind_some, h2, ho]; rfl, fun x h => ?_⟩
    cases h with
    | here h => exact hx x h
    | there h h' => exact h3 _ h x h'

theorem mapM_option_image {A B : Type} {f : A → Option B} : ∀ {l : List A} {ts : List B}, l.mapM f = some ts → ∀ {a : A} {t : B},
    a ∈ l → f a = some t → t ∈ ts
  | [], _, _, _, _, ha, _ => by cases ha
  | a' :: l, ts, h, a, t, ha, hf => by
    rw [List.mapM_cons] at h
    simp only [Option.bind_eq_bind, Option.bind_eq_some_iff, Option.pure_def, Option.some.injEq] at h
    obtain ⟨t', h1, ts', h2, rfl⟩ := h
    rcases List.mem_cons.1 ha with rfl | ha
    · rw [hf] at h1; cases h1; simp
    · exact List.mem_cons_of_mem _ (mapM_option_image h2 ha hf)

/-- Words that are read and a variable among them. -/
theorem termsOf_few {vars : List String} (h26 : vars.length ≤ 26) {w : Workload} {ss : List Sexp} (hw : w.force = some ss)
    (hread : ∀ s ∈ ss, ∃ t : Tm O, Tm.ofSexp s = some t ∧ ∀ x, HasVar x t → x ∈ vars) {a : String} (ha : .atom a ∈ ss)
    {o : O} (ho : Lang.fromOp a 0 = some o) (hv : (Lang.toVar o).isSome) : ∃ ts : List (Tm O), TermsOf w ts ∧ FewVars ts := by
  have hM : ∀ l : List Sexp, (∀ s ∈ l, ∃ t : Tm O, Tm.ofSexp s = some t ∧ ∀ x, HasVar x t → x ∈ vars) →
      ∃ ts : List (Tm O), l.mapM Tm.ofSexp = some ts := by
    intro l
    induction l with
    | nil => exact fun _ => ⟨[], rfl⟩
    | cons s l ih =>
      intro h
      obtain ⟨t, h1, -⟩ := h s (by simp)
      obtain ⟨ts, h3⟩ := ih fun a ha => h a (by simp [ha])
      exact ⟨t :: ts, by simp [List.mapM_cons, h1, h3]⟩
  obtain ⟨ts, hts⟩ := hM ss hread
  refine ⟨ts, ⟨ss, hw, hts⟩, ?_, vars, h26, ?_⟩
  · have : Tm.ofSexp (.atom a) = some (.node o []) := by rw [Tm.ofSexp, ho]; rfl
    obtain ⟨x, hx⟩ := Option.isSome_iff_exists.1 hv
    exact ⟨_, mapM_option_image hts ha this, x, .here hx⟩
  · rintro x ⟨t, ht, hx⟩
    obtain ⟨s, hs, e⟩ := mapM_option_mem hts ht
    obtain ⟨t', e', h⟩ := hread s hs
    rw [e] at e'
    cases e'
    exact h x hx

/-- The workload of a level. -/
theorem level_few {vals vars : List String} {ops : List (List String)} (h : LangOk (.new vals vars ops))
    (hc : varsCheck O vals vars ops = true) (h26 : vars.length ≤ 26) {a : String} (ha : a ∈ vars) {o : O}
    (ho : Lang.fromOp a 0 = some o) (hv : (Lang.toVar o).isSome) (n : Nat) (hn : 1 ≤ n) :
    ∃ w, recursiveWorkload .atoms n (.new vals vars ops) = some w ∧ ∃ ts : List (Tm O), TermsOf w ts ∧ FewVars ts := by
  obtain ⟨w, ss, k1, k2, k3⟩ := C66_level h .atoms n hn
  refine ⟨w, k1, termsOf_few h26 k2 (fun s hs => ?_) (a := a) ((k3 _).2 ?_) ho hv⟩
  · exact kinded_vars (fun a k hk => wordCheck_of hc hk) (langTerm_kinded ((k3 s).1 hs).1)
  · have hm : a.toList ∈ (RecipeLang.new vals vars ops).vars := List.mem_map_of_mem ha
    have e : word a.toList = .atom a := by rw [word, String.ofList_toList]
    refine ⟨e ▸ LangTerm.var hm, e ▸ HasWord.here hm, 1, rfl, hn⟩

end

/-! ## The recipes -/

theorem boolLang_few (n : Nat) (hn : 1 ≤ n) : ∃ w, recursiveWorkload .atoms n boolLang = some w ∧
    ∃ ts : List (Tm BoolOp), TermsOf w ts ∧ FewVars ts :=
  level_few (langCheck_ok (by decide +kernel)) (by decide +kernel) (by decide) (a := "a") (by decide) (o := .var "a") (by decide +kernel) rfl n hn

theorem boolCanon_few (n : Nat) (hn : 1 ≤ n) : ∃ w, boolCanon n = some w ∧
    ∃ ts : List (Tm BoolOp), TermsOf w ts ∧ FewVars ts := by
  obtain ⟨w, ss, k1, k2, k3⟩ := C66_bool_canon n hn
  refine ⟨w, k1, termsOf_few (vars := ["a", "b", "c"]) (by decide) k2 (fun s hs => ?_) (a := "a") ((k3 _).2 ?_) (o := .var "a")
    (by decide +kernel) rfl⟩
  · exact kinded_vars (fun a k hk => wordCheck_of (by decide +kernel) hk) (langTerm_kinded ((k3 s).1 hs).1)
  · exact ⟨.var (t := ['a']) (by decide), ⟨1, rfl, hn⟩, by decide +kernel⟩

theorem bvLang_few {N : Nat} {vals : List String} (hl : langCheck vals ["a", "b", "c"]
      [["~", "-"], ["&", "|", "*", "--", "+", "<<", ">>"]] = true)
    (hc : varsCheck (BvOp N) vals ["a", "b", "c"] [["~", "-"], ["&", "|", "*", "--", "+", "<<", ">>"]] = true)
    (ho : (Lang.fromOp "a" 0 : Option (BvOp N)) = some (.var "a")) (n : Nat) (hn : 1 ≤ n) :
    ∃ w, recursiveWorkload .atoms n (.new vals ["a", "b", "c"] [["~", "-"], ["&", "|", "*", "--", "+", "<<", ">>"]]) = some w ∧
      ∃ ts : List (Tm (BvOp N)), TermsOf w ts ∧ FewVars ts :=
  level_few (langCheck_ok hl) hc (by decide) (a := "a") (by decide) ho rfl n hn

theorem bv4Canon_few (n : Nat) (hn : 1 ≤ n) : ∃ w, bv4Canon n = some w ∧
    ∃ ts : List (Tm (BvOp 4)), TermsOf w ts ∧ FewVars ts := by
  obtain ⟨w, ss, k1, k2, k3⟩ := C66_bv4_canon n hn
  refine ⟨w, k1, termsOf_few (vars := ["a", "b", "c"]) (by decide) k2 (fun s hs => ?_) (a := "a") ((k3 _).2 (.inr ?_)) (o := .var "a")
    (by decide +kernel) rfl⟩
  · have h4 : varsCheck (BvOp 4) ["0", "1"] ["a", "b", "c"] [["~", "-"], ["&", "|", "*", "--", "+", "<<", ">>"]] = true := by
      decide +kernel
    rcases (k3 s).1 hs with ⟨x, hx, rfl⟩ | h
    · exact kinded_vars (fun a k hk => wordCheck_of h4 hk) (.atom (by
        simp only [kindCheck, decide_eq_true_eq]
        exact List.mem_append_left _ hx))
    · exact kinded_vars (fun a k hk => wordCheck_of (by decide +kernel) hk) (langTerm_kinded h.1)
  · exact ⟨.var (t := ['a']) (by decide), ⟨1, rfl, hn⟩, by decide +kernel⟩

theorem bv_step {N : Nat} (hN : N ≤ 64) {R : RunEnv (BvOp N) (BV N)} (hR : RunOk (bvDomain N) R) (hd : RunEnv.Deep R)
    (ha : AnswersFrom (SolverSoundBV N) bvValidate R.min.valid) {w : Workload} {prior : Ruleset (BvOp N)}
    (hpr : ∀ r ∈ Ruleset.iter prior, SafeRule (fun o k => k = o.arity ∧ LitProper o) bvOpVal r) {ts : List (Tm (BvOp N))}
    (hts : TermsOf w ts) (hfew : FewVars ts) (pl ml : Limits) (fast : Bool) :
    SafeStep (bvDomain N) (fun o k => k = o.arity ∧ LitProper o) bvOpVal R w prior pl ml fast :=
  runWorkload_step (bv_safe (by omega)) bv_initOk (bv_opsReadable (by omega)) hR hd hpr hts
    (tmOk_sorted (bv_parsesSorted (by omega)) hts) hfew (fun X hX hn => bv_total (by omega) hX hn)
    (fun _ _ _ _ _ _ _ before q _ hq hb => bv_accepted hN ha hq (asked := q :: before) ⟨before, List.suffix_rfl, hb⟩)

/-- A search and a second run, when every step completes. -/
theorem twoRuns_goes {O C V : Type} [Lang O] [LinearOrder C] {D : Domain O C} {ar : O → Nat → Prop} {I : O → List V → V}
    {E : Nat → Nat → RunEnv O C} {lang : RecipeLang} (m : Nat) {w2 : Workload}
    (hstep : ∀ k, 1 ≤ k → k ≤ m → ∃ w, recursiveWorkload .atoms k lang = some w ∧ ∀ known, WellFormed known →
      (∀ r ∈ Ruleset.iter known, SafeRule ar I r) →
      SafeStep D ar I (E 0 k) w known Limits.synthesis Limits.minimize true)
    (hlast : ∀ known, WellFormed known → (∀ r ∈ Ruleset.iter known, SafeRule ar I r) →
      SafeStep D ar I (E 1 0) w2 known Limits.synthesis Limits.minimize true) :
    ∃ E' : Nat → Nat → RunEnv O C, (∀ i k, RunEnv.Goes (E i k) (E' i k)) ∧
      (EmptyLevel D (E' 0) .atoms lang [] m ∨ ∃ r1 log, recursiveRules D (E' 0) .atoms lang [] m = some (r1, log) ∧
        (EmptyRun D (E' 1 0) w2 (Ruleset.extend [] r1) ∨
          ∃ r2, runWorkload D (E' 1 0) w2 (Ruleset.extend [] r1) .synthesis .minimize true = some r2)) := by
  obtain ⟨e1, g1, h1⟩ := recursiveRules_goes (D := D) (envs := E 0) (prior := []) (by simp [WellFormed]) (by simp [Ruleset.iter])
    m hstep
  rcases h1 with ⟨r1, log, h1, w1, s1⟩ | h1
  · obtain ⟨R', g2, out, asked, h2, h3, -⟩ := hlast (Ruleset.extend [] r1) (Ruleset.WellFormed.extend (by simp [WellFormed]) w1)
      fun r hr => (mem_extend_rules hr).elim (by simp [Ruleset.iter]) (s1 r)
    refine ⟨fun i k => if i = 0 then e1 k else if i = 1 ∧ k = 0 then R' else E i k, fun i k => ?_, ?_⟩
    · dsimp only
      split
      · rename_i h; rw [h]; exact g1 k
      · split
        · rename_i h; rw [h.1, h.2]; exact g2
        · exact RunEnv.goes_refl _
    · refine .inr ⟨r1, log, by simpa using h1, ?_⟩
      by_cases he : out = []
      · subst he
        exact .inl ⟨asked, by simpa using h2⟩
      · exact .inr ⟨(out, asked), by simpa [runWorkload] using h3 he⟩
  · refine ⟨fun i k => if i = 0 then e1 k else E i k, fun i k => ?_, .inl (by simpa using h1)⟩
    dsimp only
    split
    · rename_i h; rw [h]; exact g1 k
    · exact RunEnv.goes_refl _

/-! ## C72 -/

/-- **C72 (Boolean recipe).** `bool_rules` does not panic except by an assertion that a run found rules: whatever egg has done,
when the rebuilds go on long enough it returns, or a level of the search or the run on canonical terms found no rule. -/
theorem C72_bool (m n : Nat) (hn : 1 ≤ n) {E : Nat → Nat → RunEnv BoolOp Bool} (hR : ∀ i k, RunOk boolDomain (E i k))
    (hd : ∀ i k, RunEnv.Deep (E i k)) : ∃ E' : Nat → Nat → RunEnv BoolOp Bool, (∀ i k, RunEnv.Goes (E i k) (E' i k)) ∧
      ((∃ out, boolRulesSized m n E' = some out) ∨ EmptyLevel boolDomain (E' 0) .atoms boolLang [] m ∨
        ∃ r1 log w, recursiveRules boolDomain (E' 0) .atoms boolLang [] m = some (r1, log) ∧ boolCanon n = some w ∧
          EmptyRun boolDomain (E' 1 0) w (Ruleset.extend [] r1)) := by
  obtain ⟨w2, hw2, ts2, ht2, hf2⟩ := boolCanon_few n hn
  obtain ⟨E', hg, h⟩ := twoRuns_goes (D := boolDomain) (ar := fun o k => k = o.arity) (I := boolOpVal) (E := E) (lang := boolLang)
    m (w2 := w2) (fun k hk _ => by
      obtain ⟨w, hw, ts, ht, hf⟩ := boolLang_few k hk
      exact ⟨w, hw, fun known _ hs => bool_step (hR 0 k) (hd 0 k) hs ht hf _ _ _⟩)
    (fun known _ hs => bool_step (hR 1 0) (hd 1 0) hs ht2 hf2 _ _ _)
  refine ⟨E', hg, ?_⟩
  rcases h with h | ⟨r1, log, h1, h | ⟨r2, h2⟩⟩
  · exact .inr (.inl h)
  · exact .inr (.inr ⟨r1, log, w2, h1, hw2, h⟩)
  · refine .inl ⟨Ruleset.extend (Ruleset.extend [] r1) r2.1, ?_⟩
    simp only [boolRulesSized, Option.bind_eq_bind, h1, hw2, Option.bind_some, h2, Option.pure_def]

/-- **C72 (bit-vector recipes).** Likewise `bv4_rules`, if z3 is right when it says unsatisfiable. -/
theorem C72_bv4 {E : Nat → RunEnv (BvOp 4) (BV 4)} (hR : ∀ k, RunOk (bvDomain 4) (E k)) (hd : ∀ k, RunEnv.Deep (E k))
    (ha : ∀ k, AnswersFrom (SolverSoundBV 4) bvValidate (E k).min.valid) :
    ∃ E' : Nat → RunEnv (BvOp 4) (BV 4), (∀ k, RunEnv.Goes (E k) (E' k)) ∧
      ((∃ out, bv4Rules E' = some out) ∨ EmptyLevel (bvDomain 4) E' .atoms bv4Lang [] 5) := by
  obtain ⟨E', hg, h⟩ := recursiveRules_goes (D := bvDomain 4) (envs := E) (metric := .atoms) (lang := bv4Lang) (prior := [])
    (ar := fun o k => k = o.arity ∧ LitProper o) (I := bvOpVal) (by simp [WellFormed]) (by simp [Ruleset.iter]) 5
    (fun k hk _ => by
      obtain ⟨w, hw, ts, ht, hf⟩ := bvLang_few (N := 4) (vals := ["0", "1"]) (by decide +kernel) (by decide +kernel)
        (by decide +kernel) k hk
      exact ⟨w, hw, fun known _ hs => bv_step (by decide) (hR k) (hd k) (ha k) hs ht hf _ _ _⟩)
  refine ⟨E', hg, h.imp (fun ⟨out, log, h, _⟩ => ⟨out, ?_⟩) id⟩
  rw [bv4Rules, h]
  rfl

/-- **C72 (bit-vector recipes).** Likewise `bv32_rules`. -/
theorem C72_bv32 {E : Nat → RunEnv (BvOp 32) (BV 32)} (hR : ∀ k, RunOk (bvDomain 32) (E k)) (hd : ∀ k, RunEnv.Deep (E k))
    (ha : ∀ k, AnswersFrom (SolverSoundBV 32) bvValidate (E k).min.valid) :
    ∃ E' : Nat → RunEnv (BvOp 32) (BV 32), (∀ k, RunEnv.Goes (E k) (E' k)) ∧
      ((∃ out, bv32Rules E' = some out) ∨ EmptyLevel (bvDomain 32) E' .atoms bv32Lang [] 5) := by
  obtain ⟨E', hg, h⟩ := recursiveRules_goes (D := bvDomain 32) (envs := E) (metric := .atoms) (lang := bv32Lang) (prior := [])
    (ar := fun o k => k = o.arity ∧ LitProper o) (I := bvOpVal) (by simp [WellFormed]) (by simp [Ruleset.iter]) 5
    (fun k hk _ => by
      obtain ⟨w, hw, ts, ht, hf⟩ := bvLang_few (N := 32) (vals := ["0"]) (by decide +kernel) (by decide +kernel)
        (by decide +kernel) k hk
      exact ⟨w, hw, fun known _ hs => bv_step (by decide) (hR k) (hd k) (ha k) hs ht hf _ _ _⟩)
  refine ⟨E', hg, h.imp (fun ⟨out, log, h, _⟩ => ⟨out, ?_⟩) id⟩
  rw [bv32Rules, h]
  rfl

/-- **C72 (bit-vector recipes).** Likewise `bv4_fancy_rules`. -/
theorem C72_bv4_fancy (m n : Nat) (hn : 1 ≤ n) {E : Nat → Nat → RunEnv (BvOp 4) (BV 4)} (hR : ∀ i k, RunOk (bvDomain 4) (E i k))
    (hd : ∀ i k, RunEnv.Deep (E i k)) (ha : ∀ i k, AnswersFrom (SolverSoundBV 4) bvValidate (E i k).min.valid) :
    ∃ E' : Nat → Nat → RunEnv (BvOp 4) (BV 4), (∀ i k, RunEnv.Goes (E i k) (E' i k)) ∧
      ((∃ out, bv4FancySized m n E' = some out) ∨ EmptyLevel (bvDomain 4) (E' 0) .atoms bv4Lang [] m ∨
        ∃ r1 log w, recursiveRules (bvDomain 4) (E' 0) .atoms bv4Lang [] m = some (r1, log) ∧ bv4Canon n = some w ∧
          EmptyRun (bvDomain 4) (E' 1 0) w (Ruleset.extend [] r1)) := by
  obtain ⟨w2, hw2, ts2, ht2, hf2⟩ := bv4Canon_few n hn
  obtain ⟨E', hg, h⟩ := twoRuns_goes (D := bvDomain 4) (ar := fun o k => k = o.arity ∧ LitProper o) (I := bvOpVal) (E := E)
    (lang := bv4Lang) m (w2 := w2) (fun k hk _ => by
      obtain ⟨w, hw, ts, ht, hf⟩ := bvLang_few (N := 4) (vals := ["0", "1"]) (by decide +kernel) (by decide +kernel)
        (by decide +kernel) k hk
      exact ⟨w, hw, fun known _ hs => bv_step (by decide) (hR 0 k) (hd 0 k) (ha 0 k) hs ht hf _ _ _⟩)
    (fun known _ hs => bv_step (by decide) (hR 1 0) (hd 1 0) (ha 1 0) hs ht2 hf2 _ _ _)
  refine ⟨E', hg, ?_⟩
  rcases h with h | ⟨r1, log, h1, h | ⟨r2, h2⟩⟩
  · exact .inr (.inl h)
  · exact .inr (.inr ⟨r1, log, w2, h1, hw2, h⟩)
  · refine .inl ⟨Ruleset.extend (Ruleset.extend [] r1) r2.1, ?_⟩
    simp only [bv4FancySized, Option.bind_eq_bind, h1, hw2, Option.bind_some, h2, Option.pure_def]

end Ruler
