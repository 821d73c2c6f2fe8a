import Verif.Proofs.RecipeWorkloads
/-!
# What a workload lists, computed along plugs, filters and unions
-/
namespace Ruler
open Spec

/-- The workload lists exactly the terms described. -/
def Sem (w : Workload) (P : Sexp → Prop) : Prop := AllSets NoEmpty w ∧ ∀ t, t ∈ w.forceT ↔ P t

theorem Sem.lists {w : Workload} {P : Sexp → Prop} (h : Sem w P) : Lists (some w) P :=
  ⟨w, _, rfl, (Workload.AllSets.force h.1).1, h.2⟩

theorem Sem.cast {w : Workload} {P Q : Sexp → Prop} (h : Sem w P) (e : ∀ t, P t ↔ Q t) : Sem w Q :=
  ⟨h.1, fun t => (h.2 t).trans (e t)⟩

/-- The terms described, with holes filled. -/
def Fill (n : String) (Q P : Sexp → Prop) (t : Sexp) : Prop := ∃ s, P s ∧ Fills n Q s t

theorem Sem.plug {w p : Workload} {P Q : Sexp → Prop} (hw : Sem w P) (hp : Sem p Q) {n : String} (hn : LiteralName n) :
    Sem (w.doPlug n p) (Fill n Q P) := by
  refine ⟨Workload.AllSets.doPlug hw.1 hp.1, fun t => ?_⟩
  rw [mem_doPlug hw.1 hp.1 hn]
  have : (· ∈ p.forceT) = Q := funext fun t => propext (hp.2 t)
  rw [this]
  simp only [hw.2, Fill]

theorem Sem.filter {w : Workload} {P : Sexp → Prop} (hw : Sem w P) {f : Filter} {Q : Sexp → Prop}
    (hf : ∀ t, f.testT t = true ↔ Q t) : Sem (w.addFilter f) fun t => P t ∧ Q t :=
  ⟨Workload.AllSets.addFilter hw.1 _, fun t => by rw [Workload.forceT_addFilter, List.mem_filter, hw.2, hf]⟩

theorem Sem.append {ws : List Workload} {Ps : List (Sexp → Prop)} (h : List.Forall₂ Sem ws Ps) :
    Sem (.append ws) fun t => ∃ P ∈ Ps, P t := by
  have e : (Workload.append ws).forceT = ws.flatMap Workload.forceT := by
    rw [Workload.forceT, Workload.forceTL_eq]
  constructor
  · refine .append fun w hw => ?_
    clear e
    induction h with
    | nil => cases hw
    | cons h1 _ ih =>
      rcases List.mem_cons.1 hw with rfl | hw
      · exact h1.1
      · exact ih hw
  · intro t
    rw [e]
    clear e
    induction h with
    | nil => simp
    | cons h1 _ ih => simp [h1.2, ih]

theorem Sem.set {l : List Sexp} (h : ∀ t ∈ l, NoEmpty t) : Sem (.set l) (· ∈ l) := ⟨.set h, fun _ => Iff.rfl⟩

theorem fill_word {n : String} {Q : Sexp → Prop} {ws : List String} (h : n ∉ ws) : Fill n Q (IsWord ws) = IsWord ws := by
  funext t
  refine propext ⟨?_, ?_⟩
  · rintro ⟨s, ⟨w, hw, rfl⟩, hf⟩
    rw [fills_other (ne_of_mem_of_not_mem hw h)] at hf
    exact ⟨w, hw, hf⟩
  · rintro ⟨w, hw, rfl⟩
    exact ⟨_, ⟨w, hw, rfl⟩, .other (ne_of_mem_of_not_mem hw h)⟩

theorem fill_hole {n : String} {Q : Sexp → Prop} : Fill n Q (IsWord [n]) = Q := by
  funext t
  refine propext ⟨?_, fun h => ⟨_, ⟨n, by simp, rfl⟩, .hole h⟩⟩
  rintro ⟨s, ⟨w, hw, rfl⟩, hf⟩
  rw [List.mem_singleton] at hw
  subst hw
  exact fills_hole.1 hf

theorem fill_or {n : String} {Q P P' : Sexp → Prop} :
    Fill n Q (fun t => P t ∨ P' t) = fun t => Fill n Q P t ∨ Fill n Q P' t := by
  funext t
  simp only [Fill, or_and_right, exists_or]

theorem fill_unary {n : String} {Q P : Sexp → Prop} {os : List String} (h : n ∉ os) :
    Fill n Q (Unary os P) = Unary os (Fill n Q P) := by
  funext t
  refine propext ⟨?_, ?_⟩
  · rintro ⟨s, ⟨o, ho, x, hx, rfl⟩, hf⟩
    obtain ⟨e, he, rfl⟩ := (fills_unary (ne_of_mem_of_not_mem ho h)).1 hf
    exact ⟨o, ho, e, ⟨x, hx, he⟩, rfl⟩
  · rintro ⟨o, ho, e, ⟨x, hx, he⟩, rfl⟩
    exact ⟨_, ⟨o, ho, x, hx, rfl⟩, (fills_unary (ne_of_mem_of_not_mem ho h)).2 ⟨e, he, rfl⟩⟩

theorem fill_binary {n : String} {Q P P' : Sexp → Prop} {os : List String} (h : n ∉ os) :
    Fill n Q (Binary os P P') = Binary os (Fill n Q P) (Fill n Q P') := by
  funext t
  refine propext ⟨?_, ?_⟩
  · rintro ⟨s, ⟨o, ho, x, y, hx, hy, rfl⟩, hf⟩
    obtain ⟨e, e', he, he', rfl⟩ := (fills_binary (ne_of_mem_of_not_mem ho h)).1 hf
    exact ⟨o, ho, e, e', ⟨x, hx, he⟩, ⟨y, hy, he'⟩, rfl⟩
  · rintro ⟨o, ho, e, e', ⟨x, hx, he⟩, ⟨y, hy, he'⟩, rfl⟩
    exact ⟨_, ⟨o, ho, x, y, hx, hy, rfl⟩, (fills_binary (ne_of_mem_of_not_mem ho h)).2 ⟨e, e', he, he', rfl⟩⟩

theorem fills_list {n : String} {Q : Sexp → Prop} {l : List Sexp} {t : Sexp} :
    Fills n Q (.list l) t ↔ ∃ l', t = .list l' ∧ List.Forall₂ (Fills n Q) l l' := by
  constructor
  · intro h
    cases h with
    | list h => exact ⟨_, rfl, fillsL_iff.1 h⟩
  · rintro ⟨l', rfl, h⟩; exact .list (fillsL_iff.2 h)

theorem fill_unary_head {n : String} {P : Sexp → Prop} {ws : List String} :
    Fill n (IsWord ws) (Unary [n] P) = Unary ws (Fill n (IsWord ws) P) := by
  funext t
  refine propext ⟨?_, ?_⟩
  · rintro ⟨s, ⟨o, ho, x, hx, rfl⟩, hf⟩
    rw [List.mem_singleton] at ho
    subst ho
    obtain ⟨l', rfl, hl⟩ := fills_list.1 hf
    cases hl with
    | cons h1 hl =>
    cases hl with
    | cons h2 hl =>
    cases hl
    obtain ⟨w, hw, rfl⟩ := fills_hole.1 h1
    exact ⟨w, hw, _, ⟨x, hx, h2⟩, rfl⟩
  · rintro ⟨o, ho, e, ⟨x, hx, he⟩, rfl⟩
    exact ⟨_, ⟨n, by simp, x, hx, rfl⟩, fills_list.2 ⟨_, rfl, .cons (.hole ⟨o, ho, rfl⟩) (.cons he .nil)⟩⟩

theorem fill_binary_head {n : String} {P P' : Sexp → Prop} {ws : List String} :
    Fill n (IsWord ws) (Binary [n] P P') = Binary ws (Fill n (IsWord ws) P) (Fill n (IsWord ws) P') := by
  funext t
  refine propext ⟨?_, ?_⟩
  · rintro ⟨s, ⟨o, ho, x, y, hx, hy, rfl⟩, hf⟩
    rw [List.mem_singleton] at ho
    subst ho
    obtain ⟨l', rfl, hl⟩ := fills_list.1 hf
    cases hl with
    | cons h1 hl =>
    cases hl with
    | cons h2 hl =>
    cases hl with
    | cons h3 hl =>
    cases hl
    obtain ⟨w, hw, rfl⟩ := fills_hole.1 h1
    exact ⟨w, hw, _, _, ⟨x, hx, h2⟩, ⟨y, hy, h3⟩, rfl⟩
  · rintro ⟨o, ho, e, e', ⟨x, hx, he⟩, ⟨y, hy, he'⟩, rfl⟩
    exact ⟨_, ⟨n, by simp, x, y, hx, hy, rfl⟩,
      fills_list.2 ⟨_, rfl, .cons (.hole ⟨o, ho, rfl⟩) (.cons he (.cons he' .nil))⟩⟩

theorem fills_absent {n : String} {Q : Sexp → Prop} {s t : Sexp} (h : ¬ Subterm (.atom n) s) : Fills n Q s t ↔ t = s := by
  induction s using Sexp.ind generalizing t with
  | ha a => exact fills_other fun e => h (e ▸ .refl _)
  | hl l ih =>
    rw [fills_list]
    rw [Subterm.list_iff] at h
    have h' : ∀ t ∈ l, ¬ Subterm (.atom n) t := fun t ht hs => h (.inr ⟨t, ht, hs⟩)
    have : ∀ l', List.Forall₂ (Fills n Q) l l' ↔ l = l' := fun l' => by
      rw [← forall₂_eq_iff]
      exact forall₂_congr_mem fun s hs t => (ih s hs (h' s hs)).trans eq_comm
    simp only [this]
    constructor
    · rintro ⟨_, rfl, rfl⟩; rfl
    · rintro rfl; exact ⟨l, rfl, rfl⟩

/-- Nothing is filled in where there is no hole. -/
theorem fill_absent {n : String} {P : Sexp → Prop} (h : Fill n (fun _ => False) P = P) {P' Q : Sexp → Prop}
    (h' : ∀ t, P' t → P t) : Fill n Q P' = P' := by
  have hs : ∀ s, P s → ¬ Subterm (.atom n) s := fun s hs => by
    rw [← h] at hs
    obtain ⟨r, hr, hf⟩ := hs
    obtain ⟨rfl, hn⟩ := fills_false_iff.1 hf
    exact hn
  funext t
  refine propext ⟨?_, fun ht => ⟨t, ht, (fills_absent (hs t (h' t ht))).2 rfl⟩⟩
  rintro ⟨s, hp, hf⟩
  rw [(fills_absent (hs s (h' s hp))).1 hf]
  exact hp

theorem sem_words {l : List String} (h : ∀ t ∈ l, Plain t) : ∃ w, Workload.new l = some w ∧ Sem w (IsWord l) := by
  refine ⟨_, new_words h, .set fun t ht => ?_, fun t => ?_⟩
  · obtain ⟨a, -, rfl⟩ := List.mem_map.1 ht
    exact NoEmpty.atom _
  · simp only [Workload.forceT, texts, List.mem_map, IsWord, exists_exists_and_eq_and, word, String.ofList_toList]
    exact exists_congr fun w => and_congr_right fun _ => eq_comm

theorem instance_unary {σ : String → Sexp} {f : String} {p : Pattern} {s : Sexp} :
    Instance σ (.list [.lit f, p]) s ↔ ∃ x, s = .list [.atom f, x] ∧ Instance σ p x := by
  constructor
  · intro h
    cases h with
    | list h =>
    cases h with
    | cons h1 h =>
    cases h with
    | cons h2 h =>
    cases h
    cases h1
    exact ⟨_, rfl, h2⟩
  · rintro ⟨x, rfl, h⟩; exact .list (.cons (.lit _) (.cons h .nil))

theorem instance_ternary {σ : String → Sexp} {p q r : Pattern} {s : Sexp} :
    Instance σ (.list [p, q, r]) s ↔ ∃ x y z, s = .list [x, y, z] ∧ Instance σ p x ∧ Instance σ q y ∧ Instance σ r z := by
  constructor
  · intro h
    cases h with
    | list h =>
    cases h with
    | cons h1 h =>
    cases h with
    | cons h2 h =>
    cases h with
    | cons h3 h =>
    cases h
    exact ⟨_, _, _, rfl, h1, h2, h3⟩
  · rintro ⟨x, y, z, rfl, h1, h2, h3⟩; exact .list (.cons h1 (.cons h2 (.cons h3 .nil)))

theorem instance_lit {σ : String → Sexp} {f : String} {s : Sexp} : Instance σ (.lit f) s ↔ s = .atom f :=
  ⟨fun h => by cases h; rfl, fun h => h ▸ .lit f⟩

theorem instance_var {σ : String → Sexp} {f : String} {s : Sexp} : Instance σ (.var f) s ↔ s = σ f :=
  ⟨fun h => by cases h; rfl, fun h => h ▸ .var f⟩

theorem instance_wild {σ : String → Sexp} {s : Sexp} : Instance σ .wild s := .wild s

theorem contains_has {p : Pattern} {P : Sexp → Prop} (h : ∀ s, (∃ σ, Instance σ p s) ↔ P s) (t : Sexp) :
    Filter.containsTest p t = true ↔ Has P t := by
  rw [Filter.containsTest_iff]
  simp only [Has, matches_iff, h]

end Ruler
