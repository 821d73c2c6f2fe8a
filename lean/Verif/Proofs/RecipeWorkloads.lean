import Verif.Proofs.Signature
import Verif.Model.Recipes
/-! Lemmas about the workloads of the recipes. -/
namespace Ruler
open Spec

/-! ## Words -/

/-- The words of string literals. -/
abbrev texts (l : List String) : List (List Char) := l.map String.toList

theorem new_words {l : List String} (h : ∀ t ∈ l, Plain t) : Workload.new l = some (.set ((texts l).map word)) :=
  ofTexts_words fun t ht => by
    obtain ⟨s, hs, rfl⟩ := List.mem_map.1 ht
    rw [String.ofList_toList]
    exact h s hs

theorem plugNew_words (w : Workload) (name : String) {l : List String} (h : ∀ t ∈ l, Plain t) :
    w.plugNew name l = some (plugAll w [(name, texts l)]) := by
  rw [Workload.plugNew, new_words h]; rfl

theorem plugAll_append (w : Workload) (P Q : List (String × List (List Char))) :
    plugAll (plugAll w P) Q = plugAll w (P ++ Q) := by
  rw [plugAll, plugAll, plugAll, List.foldl_append]

theorem tabRel_swap {p q : String × List (List Char)} (h : p.1 ≠ q.1) (R : List (String × List (List Char))) :
    TabRel (p :: q :: R) = TabRel (q :: p :: R) := by
  funext a b
  have : (p :: q :: R).lookup a = (q :: p :: R).lookup a := by
    by_cases h1 : a = p.1
    · have e1 : (a == p.1) = true := by simpa using h1
      have e2 : (a == q.1) = false := by rw [h1]; simpa using h
      rw [List.lookup, List.lookup, List.lookup, e1, e2]
      show some p.2 = List.lookup a (p :: R)
      rw [List.lookup, e1]
    · have e1 : (a == p.1) = false := by simpa using h1
      rw [List.lookup, List.lookup, List.lookup, List.lookup, e1]
  rw [TabRel, TabRel, this]

/-! ## Renaming terms of a language -/

theorem renameL_map (ρ : String → String) (l : List Sexp) : renameL ρ l = l.map (rename ρ) := by
  induction l with
  | nil => rfl
  | cons s l ih => rw [renameL, ih]; rfl

theorem rename_measureT (ρ : String → String) (m : Metric) (s : Sexp) : (rename ρ s).measureT m = s.measureT m := by
  induction s using Sexp.ind with
  | ha a => cases m <;> rfl
  | hl l ih =>
    have : (renameL ρ l).map (Sexp.measureT m) = l.map (Sexp.measureT m) := by
      rw [renameL_map, List.map_map]
      exact List.map_congr_left ih
    simp only [rename, Sexp.measureT, Sexp.measureTL_eq, this]

theorem langTerm_noEmpty {L : RecipeLang} {t : Sexp} (h : LangTerm L t) : NoEmpty t := by
  induction h with
  | val => exact NoEmpty.atom _
  | var => exact NoEmpty.atom _
  | app _ _ _ _ ih =>
    rw [NoEmpty.list_iff]
    refine ⟨by simp, fun s hs => ?_⟩
    rcases List.mem_cons.1 hs with rfl | hs
    · exact NoEmpty.atom _
    · exact ih s hs

/-- Renaming variables gives a term of the language. -/
theorem langTerm_rename {L : RecipeLang} {S : List String} (hS : ∀ t, t ∈ L.vars ↔ String.ofList t ∈ S)
    (hv : ∀ t ∈ L.vals, String.ofList t ∉ S) (ho : ∀ os ∈ L.ops, ∀ t ∈ os, String.ofList t ∉ S) {ρ : String → String}
    (hinj : ∀ a b, ρ a = ρ b → a = b) (hfix : ∀ a, a ∉ S → ρ a = a) {t : Sexp} (h : LangTerm L t) : LangTerm L (rename ρ t) := by
  have hin : ∀ a, a ∈ S → ρ a ∈ S := fun a ha => by
    by_contra hc
    have := hinj _ _ (hfix _ hc)
    rw [this] at hc
    exact hc ha
  induction h with
  | @val t ht =>
    have e : rename ρ (word t) = word t := by rw [word, rename, hfix _ (hv t ht)]
    rw [e]; exact .val ht
  | @var t ht =>
    have e : rename ρ (word t) = word (ρ (String.ofList t)).toList := by rw [word, rename, word, String.ofList_toList]
    rw [e]
    refine .var ((hS _).2 ?_)
    rw [String.ofList_toList]
    exact hin _ ((hS t).1 ht)
  | @app i os o args h1 h2 h3 _ ih =>
    have e : rename ρ (.list (word o :: args)) = .list (word o :: args.map (rename ρ)) := by
      rw [rename, renameL_map, List.map_cons, word, rename, hfix _ (ho os (List.mem_of_getElem? h1) o h2)]
    rw [e]
    refine .app h1 h2 (by rw [List.length_map, h3]) fun a ha => ?_
    obtain ⟨b, hb, rfl⟩ := List.mem_map.1 ha
    exact ih b hb

/-! ## Canonical terms without constants -/

/-- The workloads of canonical terms of a language without values. -/
theorem canon_level {L : RecipeLang} (h : LangOk L) (met : Metric) (n : Nat) (hn : 1 ≤ n) (S : List String) {w : Workload}
    {P : List (String × List (List Char))} (hP : TabOk P) (he : TabRel P = TabRel (langTab L))
    (hw : w = (plugAll (iterMetric (baseLang L.ops.length) "EXPR" met n) P).addFilter (.canon S)) :
    AllSets NoEmpty w ∧ ∀ t, t ∈ w.forceT ↔
      LangTerm L t ∧ (∃ m, t.measure met = some m ∧ m ≤ n) ∧ t.canon S = some t := by
  subst hw
  obtain ⟨rs, h1, -, h3⟩ := C12_base_lang L.ops.length n met hn
  have hs : AllSets NoEmpty (iterMetric (baseLang L.ops.length) "EXPR" met n) := iterMetric_sets (baseLang_sets _) _ _ _
  obtain ⟨h4, h5⟩ := plugAll_spec hs hP
  refine ⟨Workload.AllSets.addFilter h4 _, fun t => ?_⟩
  rw [Workload.forceT_addFilter, List.mem_filter, h5, ← Workload.force_some _ _ h1, he]
  simp only [h3, Filter.testT, decide_eq_true_eq]
  rw [← and_assoc]
  refine and_congr_left fun _ => ⟨?_, ?_⟩
  · rintro ⟨s, ⟨hsk, m, hm, hle⟩, hst⟩
    have k1 := (langTerm_of_skeleton h hsk hst).1
    refine ⟨k1, m, ?_, hle⟩
    rw [Sexp.measure_noEmpty met t (langTerm_noEmpty k1), maps_measureT hst, ← Sexp.measure_some _ _ _ hm]
  · rintro ⟨ht, m, hm, hle⟩
    obtain ⟨s, hsk, hst⟩ := skeleton_of_langTerm h ht
    refine ⟨s, ⟨hsk, m, ?_, hle⟩, hst⟩
    have hne : NoEmpty s := by
      rw [← derives_baseLang_iff] at hsk
      exact Derives.noEmpty (Workload.AllSets.force (baseLang_sets L.ops.length)).2 hsk
    rw [Sexp.measure_noEmpty met s hne, ← maps_measureT hst, ← Sexp.measure_some _ _ _ hm]

/-! ## Shapes -/

theorem tabRel_texts {P : List (String × List (List Char))} {a : String} {l : List String} (h : P.lookup a = some (texts l))
    {b : String} : TabRel P a b ↔ b ∈ l := by
  rw [TabRel, h]
  constructor
  · rintro ⟨w, hw, rfl⟩
    obtain ⟨s, hs, rfl⟩ := List.mem_map.1 hw
    rwa [String.ofList_toList]
  · exact fun hb => ⟨b.toList, List.mem_map_of_mem hb, String.ofList_toList.symm⟩

theorem maps_unary {σ : String → String → Prop} {o : String} {x t : Sexp} :
    Maps σ (.list [.atom o, x]) t ↔ ∃ o' e, σ o o' ∧ Maps σ x e ∧ t = .list [.atom o', e] := by
  rw [maps_list]
  constructor
  · rintro ⟨l', rfl, h⟩
    cases h with
    | cons h1 h =>
    cases h with
    | cons h2 h =>
    cases h
    obtain ⟨o', rfl, h1⟩ := maps_atom.1 h1
    exact ⟨o', _, h1, h2, rfl⟩
  · rintro ⟨o', e, h1, h2, rfl⟩
    exact ⟨_, rfl, .cons (maps_atom.2 ⟨o', rfl, h1⟩) (.cons h2 .nil)⟩

theorem maps_binary {σ : String → String → Prop} {o : String} {x y t : Sexp} : Maps σ (.list [.atom o, x, y]) t ↔
    ∃ o' e1 e2, σ o o' ∧ Maps σ x e1 ∧ Maps σ y e2 ∧ t = .list [.atom o', e1, e2] := by
  rw [maps_list]
  constructor
  · rintro ⟨l', rfl, h⟩
    cases h with
    | cons h1 h =>
    cases h with
    | cons h2 h =>
    cases h with
    | cons h3 h =>
    cases h
    obtain ⟨o', rfl, h1⟩ := maps_atom.1 h1
    exact ⟨o', _, _, h1, h2, h3, rfl⟩
  · rintro ⟨o', e1, e2, h1, h2, h3, rfl⟩
    exact ⟨_, rfl, .cons (maps_atom.2 ⟨o', rfl, h1⟩) (.cons h2 (.cons h3 .nil))⟩

theorem maps_ternary {σ : String → String → Prop} {o : String} {x y z t : Sexp} : Maps σ (.list [.atom o, x, y, z]) t ↔
    ∃ o' e1 e2 e3, σ o o' ∧ Maps σ x e1 ∧ Maps σ y e2 ∧ Maps σ z e3 ∧ t = .list [.atom o', e1, e2, e3] := by
  rw [maps_list]
  constructor
  · rintro ⟨l', rfl, h⟩
    cases h with
    | cons h1 h =>
    cases h with
    | cons h2 h =>
    cases h with
    | cons h3 h =>
    cases h with
    | cons h4 h =>
    cases h
    obtain ⟨o', rfl, h1⟩ := maps_atom.1 h1
    exact ⟨o', _, _, _, h1, h2, h3, h4, rfl⟩
  · rintro ⟨o', e1, e2, e3, h1, h2, h3, h4, rfl⟩
    exact ⟨_, rfl, .cons (maps_atom.2 ⟨o', rfl, h1⟩) (.cons h2 (.cons h3 (.cons h4 .nil)))⟩

/-- The check that holes and words are as they should be. -/
def tabCheck (P : List (String × List String)) : Bool :=
  decide (P.map Prod.fst).Nodup && P.all fun p => decide (LiteralName p.1) && p.2.all fun w => decide (w ∉ P.map Prod.fst)

abbrev tab (P : List (String × List String)) : List (String × List (List Char)) := P.map fun p => (p.1, texts p.2)

theorem tabCheck_ok {P : List (String × List String)} (h : tabCheck P = true) : TabOk (tab P) := by
  simp only [tabCheck, Bool.and_eq_true, decide_eq_true_eq, List.all_eq_true] at h
  have e : (tab P).map Prod.fst = P.map Prod.fst := by rw [List.map_map]; rfl
  refine ⟨by rw [e]; exact h.1, fun p hp w hw => ?_, fun p hp => ?_⟩
  · obtain ⟨q, hq, rfl⟩ := List.mem_map.1 hp
    obtain ⟨s, hs, rfl⟩ := List.mem_map.1 hw
    rw [e, String.ofList_toList]
    exact (h.2 q hq).2 s hs
  · obtain ⟨q, hq, rfl⟩ := List.mem_map.1 hp
    exact (h.2 q hq).1

/-- The check that a language is as it should be. -/
def langCheck (vals vars : List String) (ops : List (List String)) : Bool :=
  decide (ops.length = 2 ∨ ops.length = 3) &&
  (vals ++ vars ++ ops.flatten).all (fun t => decide (Plain t) && decide (t ∉ ["VAR", "VAL", "OP1", "OP2", "OP3"])) &&
  vars.all fun t => decide (t ∉ vals)

theorem toList_inj' {s t : String} (h : s.toList = t.toList) : s = t := by
  rw [← String.ofList_toList (s := s), h, String.ofList_toList]

theorem langCheck_ok {vals vars : List String} {ops : List (List String)} (h : langCheck vals vars ops = true) :
    LangOk (.new vals vars ops) := by
  simp only [langCheck, Bool.and_eq_true, decide_eq_true_eq, List.all_eq_true] at h
  obtain ⟨⟨h1, h2⟩, h3⟩ := h
  have key : ∀ t, RecipeLang.Text (.new vals vars ops) t → ∃ s ∈ vals ++ vars ++ ops.flatten, t = s.toList := by
    rintro t (ht | ht | ⟨os, hos, ht⟩)
    · obtain ⟨s, hs, rfl⟩ := List.mem_map.1 ht
      exact ⟨s, by simp [hs], rfl⟩
    · obtain ⟨s, hs, rfl⟩ := List.mem_map.1 ht
      exact ⟨s, by simp [hs], rfl⟩
    · obtain ⟨os', hos', rfl⟩ := List.mem_map.1 hos
      obtain ⟨s, hs, rfl⟩ := List.mem_map.1 ht
      exact ⟨s, List.mem_append_right _ (List.mem_flatten.2 ⟨os', hos', hs⟩), rfl⟩
  refine ⟨by simpa [RecipeLang.new] using h1, fun t ht => ?_, fun t ht => ?_, fun t ht hv => ?_⟩
  · obtain ⟨s, hs, rfl⟩ := key t ht
    rw [String.ofList_toList]; exact (h2 s hs).1
  · obtain ⟨s, hs, rfl⟩ := key t ht
    rw [String.ofList_toList]; exact (h2 s hs).2
  · obtain ⟨s, hs, rfl⟩ := List.mem_map.1 ht
    obtain ⟨s', hs', e⟩ := List.mem_map.1 hv
    rw [toList_inj' e] at hs'
    exact h3 s hs hs'

/-! ## Plugging terms -/

theorem mem_doPlug {w pegs : Workload} (hw : AllSets NoEmpty w) (hp : AllSets NoEmpty pegs) {name : String} (hn : LiteralName name)
    {t : Sexp} : t ∈ (w.doPlug name pegs).forceT ↔ ∃ s ∈ w.forceT, Fills name (· ∈ pegs.forceT) s t := by
  obtain ⟨ts, ps, rs, h1, h2, h3, h4⟩ := C04_plug_fills w pegs name hw hp fun _ => hn
  rw [← Workload.force_some _ _ h3, h4, ← Workload.force_some _ _ h1, ← Workload.force_some _ _ h2]

theorem fills_hole {name : String} {P : Sexp → Prop} {t : Sexp} : Fills name P (.atom name) t ↔ P t := by
  constructor
  · intro h
    cases h with
    | hole h => exact h
    | other h => exact absurd rfl h
  · exact .hole

theorem fills_other {name a : String} {P : Sexp → Prop} {t : Sexp} (h : a ≠ name) : Fills name P (.atom a) t ↔ t = .atom a := by
  constructor
  · intro k
    cases k with
    | hole => exact absurd rfl h
    | other => rfl
  · rintro rfl; exact .other h

theorem fills_unary {name o : String} {P : Sexp → Prop} {x t : Sexp} (ho : o ≠ name) :
    Fills name P (.list [.atom o, x]) t ↔ ∃ e, Fills name P x e ∧ t = .list [.atom o, e] := by
  constructor
  · intro h
    cases h with
    | list h =>
    cases h with
    | cons h1 h =>
    cases h with
    | cons h2 h =>
    cases h
    rw [fills_other ho] at h1
    subst h1
    exact ⟨_, h2, rfl⟩
  · rintro ⟨e, h, rfl⟩
    exact .list (.cons (.other ho) (.cons h .nil))

theorem fills_binary {name o : String} {P : Sexp → Prop} {x y t : Sexp} (ho : o ≠ name) :
    Fills name P (.list [.atom o, x, y]) t ↔ ∃ e1 e2, Fills name P x e1 ∧ Fills name P y e2 ∧ t = .list [.atom o, e1, e2] := by
  constructor
  · intro h
    cases h with
    | list h =>
    cases h with
    | cons h1 h =>
    cases h with
    | cons h2 h =>
    cases h with
    | cons h3 h =>
    cases h
    rw [fills_other ho] at h1
    subst h1
    exact ⟨_, _, h2, h3, rfl⟩
  · rintro ⟨e1, e2, h1, h2, rfl⟩
    exact .list (.cons (.other ho) (.cons h1 (.cons h2 .nil)))

/-! ## Readable workloads -/

/-- The check that an atom with a number of arguments is in a language. -/
def kindCheck (vals vars : List String) (ops : List (List String)) (q : String × Nat) : Bool :=
  match q.2 with
  | 0 => decide (q.1 ∈ vals ++ vars)
  | k + 1 => match ops[k]? with
    | some os => decide (q.1 ∈ os)
    | none => false

theorem kinded_langTerm {vals vars : List String} {ops : List (List String)} {H : String → Nat → Prop}
    (h : ∀ a k, H a k → kindCheck vals vars ops (a, k) = true) {t : Sexp} (ht : Kinded H t) :
    LangTerm (.new vals vars ops) t := by
  induction ht with
  | @atom a ha =>
    have := h _ _ ha
    simp only [kindCheck, decide_eq_true_eq, List.mem_append] at this
    have e : Sexp.atom a = word a.toList := by rw [word, String.ofList_toList]
    rw [e]
    rcases this with h | h
    · exact .val (List.mem_map_of_mem h)
    · exact .var (List.mem_map_of_mem h)
  | @app o args h1 h2 _ ih =>
    obtain ⟨k, hk⟩ : ∃ k, args.length = k + 1 := ⟨args.length - 1, by
      have : args.length ≠ 0 := by simpa using h1
      omega⟩
    have := h _ _ h2
    rw [hk] at this
    simp only [kindCheck] at this
    split at this
    · rename_i os hos
      rw [decide_eq_true_eq] at this
      have e : Sexp.atom o = word o.toList := by rw [word, String.ofList_toList]
      rw [e]
      refine .app (i := k) (os := os.map String.toList) ?_ (List.mem_map_of_mem this) hk ih
      simp [RecipeLang.new, hos]
    · cases this

theorem langTerm_kinded {vals vars : List String} {ops : List (List String)} {t : Sexp} (h : LangTerm (.new vals vars ops) t) :
    Kinded (fun a k => kindCheck vals vars ops (a, k) = true) t := by
  induction h with
  | @val t ht =>
    obtain ⟨s, hs, rfl⟩ := List.mem_map.1 ht
    rw [word, String.ofList_toList]
    exact .atom (by simp [kindCheck, hs])
  | @var t ht =>
    obtain ⟨s, hs, rfl⟩ := List.mem_map.1 ht
    rw [word, String.ofList_toList]
    exact .atom (by simp [kindCheck, hs])
  | @app i os o args h1 h2 h3 _ ih =>
    have h1' : (ops.map fun o => o.map String.toList)[i]? = some os := h1
    rw [List.getElem?_map, Option.map_eq_some_iff] at h1'
    obtain ⟨os', h4, rfl⟩ := h1'
    obtain ⟨s, hs, rfl⟩ := List.mem_map.1 h2
    rw [word, String.ofList_toList]
    refine .app ?_ ?_ ih
    · intro e; rw [e] at h3; simp at h3
    · rw [h3]; simp [kindCheck, h4, hs]

/-- The check that all terms of a workload are terms of a language that can be read. -/
def langReadable (O : Type) [Lang O] (vals vars : List String) (ops : List (List String)) (w : Workload) : Bool :=
  match w.sig with
  | some S => S.all fun q => kindCheck vals vars ops q && (Lang.fromOp q.1 q.2 : Option O).isSome
  | none => false

theorem langReadable_spec {O : Type} [Lang O] {vals vars : List String} {ops : List (List String)} {w : Workload}
    (h : langReadable O vals vars ops w = true) :
    ∃ ts, w.force = some ts ∧ ∀ t ∈ ts, LangTerm (.new vals vars ops) t ∧ ∃ e : Tm O, Tm.ofSexp t = some e := by
  unfold langReadable at h
  split at h
  · rename_i S hS
    simp only [List.all_eq_true, Bool.and_eq_true] at h
    refine ⟨_, (Workload.AllSets.force (Workload.sig_sets hS)).1, fun t ht => ⟨?_, ?_⟩⟩
    · exact kinded_langTerm (fun a k hm => (h (a, k) hm).1) (Workload.sig_kinded hS t ht)
    · exact (Workload.sig_kinded hS t ht).ofSexp fun a k hm => Option.isSome_iff_exists.1 (h (a, k) hm).2
  · cases h

theorem forced_of {w : Option Workload} {p : List Sexp → Prop} [DecidablePred p] (h : (match w.bind Workload.force with
      | some ts => decide (p ts)
      | none => false) = true) : ∃ w' ts, w = some w' ∧ w'.force = some ts ∧ p ts := by
  split at h
  · rename_i ts hts
    obtain ⟨w', rfl, h2⟩ := Option.bind_eq_some_iff.1 hts
    exact ⟨w', ts, rfl, h2, of_decide_eq_true h⟩
  · cases h

end Ruler
