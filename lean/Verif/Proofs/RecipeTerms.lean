import Verif.Props.Recipe
import Verif.Proofs.Text
import Verif.Props.Text
import Verif.Spec.RecipeTerms
import Mathlib.Data.List.Induction
/-! Lemmas about workloads in which holes are replaced by words. -/
namespace Ruler
open Spec

/-! ## Replacing atoms by atoms -/

mutual
/-- The second term is the first one with every atom replaced by a related one. -/
def Maps (σ : String → String → Prop) : Sexp → Sexp → Prop
  | .atom a, .atom b => σ a b
  | .list l, .list l' => MapsL σ l l'
  | .atom _, .list _ => False
  | .list _, .atom _ => False
def MapsL (σ : String → String → Prop) : List Sexp → List Sexp → Prop
  | [], [] => True
  | s :: l, s' :: l' => Maps σ s s' ∧ MapsL σ l l'
  | [], _ :: _ => False
  | _ :: _, [] => False
end

theorem mapsL_iff {σ : String → String → Prop} : ∀ {l l' : List Sexp}, MapsL σ l l' ↔ List.Forall₂ (Maps σ) l l'
  | [], [] => by simp [MapsL]
  | [], _ :: _ => by simp [MapsL]
  | _ :: _, [] => by simp [MapsL]
  | _ :: _, _ :: _ => by simp [MapsL, mapsL_iff]

theorem maps_list {σ : String → String → Prop} {l : List Sexp} {t : Sexp} :
    Maps σ (.list l) t ↔ ∃ l', t = .list l' ∧ List.Forall₂ (Maps σ) l l' := by
  cases t with
  | atom b => simp [Maps]
  | list l' => simp [Maps, mapsL_iff]

theorem maps_atom {σ : String → String → Prop} {a : String} {t : Sexp} :
    Maps σ (.atom a) t ↔ ∃ b, t = .atom b ∧ σ a b := by
  cases t with
  | atom b => simp [Maps]
  | list l' => simp [Maps]

/-- What plugging words into a hole does to an atom. -/
def PlugRel (name : String) (ws : List (List Char)) (a b : String) : Prop :=
  if a = name then ∃ w ∈ ws, b = String.ofList w else b = a

theorem fills_maps {name : String} {ws : List (List Char)} {t t' : Sexp} :
    Fills name (· ∈ ws.map word) t t' ↔ Maps (PlugRel name ws) t t' := by
  induction t using Sexp.ind generalizing t' with
  | ha a =>
    rw [maps_atom]
    constructor
    · intro h
      cases h with
      | hole hp =>
        obtain ⟨w, hw, rfl⟩ := List.mem_map.1 hp
        exact ⟨_, rfl, by rw [PlugRel, if_pos rfl]; exact ⟨w, hw, rfl⟩⟩
      | other hne => exact ⟨_, rfl, by rw [PlugRel, if_neg hne]⟩
    · rintro ⟨b, rfl, h⟩
      unfold PlugRel at h
      split at h
      · rename_i e; subst e
        obtain ⟨w, hw, rfl⟩ := h
        exact .hole (List.mem_map.2 ⟨w, hw, rfl⟩)
      · rename_i hne; subst h; exact .other hne
  | hl l ih =>
    rw [maps_list]
    constructor
    · intro h
      cases h with
      | @list _ l' hl =>
        refine ⟨l', rfl, ?_⟩
        rw [fillsL_iff] at hl
        induction hl with
        | nil => exact .nil
        | cons h1 _ ih' =>
          exact .cons ((ih _ (by simp)).1 h1) (ih' fun s hs => ih s (by simp [hs]))
    · rintro ⟨l', rfl, h⟩
      refine .list (fillsL_iff.2 ?_)
      induction h with
      | nil => exact .nil
      | cons h1 _ ih' =>
        exact .cons ((ih _ (by simp)).2 h1) (ih' fun s hs => ih s (by simp [hs]))

theorem maps_comp {σ τ : String → String → Prop} {s t : Sexp} :
    (∃ u, Maps σ s u ∧ Maps τ u t) ↔ Maps (fun a c => ∃ b, σ a b ∧ τ b c) s t := by
  induction s using Sexp.ind generalizing t with
  | ha a =>
    simp only [maps_atom]
    constructor
    · rintro ⟨_, ⟨b, rfl, h⟩, h'⟩
      obtain ⟨c, rfl, h'⟩ := maps_atom.1 h'
      exact ⟨c, rfl, b, h, h'⟩
    · rintro ⟨c, rfl, b, h, h'⟩
      exact ⟨_, ⟨b, rfl, h⟩, maps_atom.2 ⟨c, rfl, h'⟩⟩
  | hl l ih =>
    simp only [maps_list]
    constructor
    · rintro ⟨_, ⟨l', rfl, h⟩, h'⟩
      obtain ⟨l'', rfl, k⟩ := maps_list.1 h'
      refine ⟨l'', rfl, ?_⟩
      clear h'
      induction h generalizing l'' with
      | nil => cases k; exact .nil
      | cons h1 _ ih' =>
        cases k with
        | cons h2 h3 => exact .cons ((ih _ (by simp)).1 ⟨_, h1, h2⟩) (ih' (fun s hs => ih s (by simp [hs])) _ h3)
    · rintro ⟨l'', rfl, h⟩
      suffices ∃ l', List.Forall₂ (Maps σ) l l' ∧ List.Forall₂ (Maps τ) l' l'' by
        obtain ⟨l', h1, h2⟩ := this
        exact ⟨_, ⟨l', rfl, h1⟩, maps_list.2 ⟨l'', rfl, h2⟩⟩
      induction h with
      | nil => exact ⟨[], .nil, .nil⟩
      | cons h1 _ ih' =>
        obtain ⟨u, h2, h3⟩ := (ih _ (by simp)).2 h1
        obtain ⟨l', h4, h5⟩ := ih' fun s hs => ih s (by simp [hs])
        exact ⟨u :: l', .cons h2 h4, .cons h3 h5⟩

theorem forall₂_eq_iff {A : Type} {l l' : List A} : List.Forall₂ Eq l l' ↔ l = l' := by
  constructor
  · intro h; induction h with
    | nil => rfl
    | cons h _ ih => rw [h, ih]
  · rintro rfl; induction l with
    | nil => exact .nil
    | cons a l ih => exact .cons rfl ih

theorem forall₂_congr_mem {A B : Type} {R S : A → B → Prop} {l : List A} {l' : List B}
    (h : ∀ a ∈ l, ∀ b, R a b ↔ S a b) : List.Forall₂ R l l' ↔ List.Forall₂ S l l' := by
  induction l generalizing l' with
  | nil => cases l' <;> simp
  | cons a l ih =>
    cases l' with
    | nil => simp
    | cons b l' => simp [h a (by simp) b, ih fun a ha => h a (by simp [ha])]

theorem maps_congr {σ τ : String → String → Prop} {s t : Sexp}
    (h : ∀ a, Subterm (.atom a) s → ∀ b, σ a b ↔ τ a b) : Maps σ s t ↔ Maps τ s t := by
  induction s using Sexp.ind generalizing t with
  | ha a => simp only [maps_atom, h a (.refl _)]
  | hl l ih =>
    simp only [maps_list]
    have : ∀ l', List.Forall₂ (Maps σ) l l' ↔ List.Forall₂ (Maps τ) l l' := fun l' =>
      forall₂_congr_mem fun s hs t => ih s hs (fun a ha => h a (.child hs ha))
    simp only [this]

theorem maps_eq {s t : Sexp} : Maps (fun a b => b = a) s t ↔ t = s := by
  induction s using Sexp.ind generalizing t with
  | ha a => simp [maps_atom]
  | hl l ih =>
    rw [maps_list]
    have : ∀ l', List.Forall₂ (Maps fun a b => b = a) l l' ↔ l = l' := fun l' => by
      rw [← forall₂_eq_iff]
      exact forall₂_congr_mem fun s hs t => (ih s hs).trans eq_comm
    simp only [this]
    constructor
    · rintro ⟨l', rfl, rfl⟩; rfl
    · rintro rfl; exact ⟨l, rfl, rfl⟩

theorem maps_measureT {σ : String → String → Prop} {m : Metric} {s t : Sexp} (h : Maps σ s t) :
    t.measureT m = s.measureT m := by
  induction s using Sexp.ind generalizing t with
  | ha a =>
    obtain ⟨b, rfl, -⟩ := maps_atom.1 h
    cases m <;> rfl
  | hl l ih =>
    obtain ⟨l', rfl, k⟩ := maps_list.1 h
    have : l'.map (Sexp.measureT m) = l.map (Sexp.measureT m) := by
      clear * - k ih
      induction k with
      | nil => rfl
      | cons h1 _ ih' =>
        rw [List.map_cons, List.map_cons, ih _ (by simp) h1, ih' fun s hs => ih s (by simp [hs])]
    simp only [Sexp.measureT, Sexp.measureTL_eq, this]

theorem maps_noEmpty {σ : String → String → Prop} {s t : Sexp} (h : Maps σ s t) (hn : NoEmpty s) : NoEmpty t := by
  induction s using Sexp.ind generalizing t with
  | ha a =>
    obtain ⟨b, rfl, -⟩ := maps_atom.1 h
    exact NoEmpty.atom b
  | hl l ih =>
    obtain ⟨l', rfl, k⟩ := maps_list.1 h
    rw [NoEmpty.list_iff] at hn ⊢
    refine ⟨fun e => ?_, fun t ht => ?_⟩
    · subst e; cases k; exact hn.1 rfl
    · obtain ⟨s, hs, hst⟩ : ∃ s ∈ l, Maps σ s t := by
        clear * - k ht
        induction k with
        | nil => simp at ht
        | cons h1 _ ih =>
          rcases List.mem_cons.1 ht with rfl | ht
          · exact ⟨_, by simp, h1⟩
          · obtain ⟨s, h1, h2⟩ := ih ht
            exact ⟨s, by simp [h1], h2⟩
      exact ih s hs hst (hn.2 s hs)

/-! ## Plugging words into several holes -/

/-- Plugging lists of words into holes, one after the other. -/
def plugAll (w : Workload) (P : List (String × List (List Char))) : Workload :=
  P.foldl (fun w p => w.doPlug p.1 (.set (p.2.map word))) w

/-- What plugging words into several holes does to an atom. -/
def TabRel (P : List (String × List (List Char))) (a b : String) : Prop :=
  match P.lookup a with
  | some ws => ∃ w ∈ ws, b = String.ofList w
  | none => b = a

/-- The holes are distinct and read as literals, and no word is the name of a hole. -/
structure TabOk (P : List (String × List (List Char))) : Prop where
  keys : (P.map Prod.fst).Nodup
  words : ∀ p ∈ P, ∀ w ∈ p.2, String.ofList w ∉ P.map Prod.fst
  lits : ∀ p ∈ P, LiteralName p.1

theorem TabOk.init {P : List (String × List (List Char))} {p : String × List (List Char)} (h : TabOk (P ++ [p])) : TabOk P :=
  ⟨by have := h.keys; rw [List.map_append, List.nodup_append] at this; exact this.1,
    fun q hq w hw hm => h.words q (by simp [hq]) w hw (by rw [List.map_append]; exact List.mem_append_left _ hm),
    fun q hq => h.lits q (by simp [hq])⟩

theorem lookup_none_of_not_mem {B : Type} {P : List (String × B)} {a : String} (h : a ∉ P.map Prod.fst) : P.lookup a = none := by
  induction P with
  | nil => rfl
  | cons p P ih =>
    simp only [List.map_cons, List.mem_cons, not_or] at h
    have e : (a == p.1) = false := by simpa using h.1
    rw [List.lookup_cons, e]
    exact ih h.2

theorem lookup_mem_tab {B : Type} {P : List (String × B)} {a : String} {b : B} (h : P.lookup a = some b) : (a, b) ∈ P := by
  induction P with
  | nil => cases h
  | cons p P ih =>
    rw [List.lookup_cons] at h
    split at h
    · rename_i e
      cases h
      rw [beq_iff_eq] at e
      subst e; simp
    · exact List.mem_cons_of_mem _ (ih h)

/-- The holes that are left are left alone. -/
theorem TabRel.keeps {P : List (String × List (List Char))} {p : String × List (List Char)} (h : TabOk (P ++ [p]))
    {a b : String} (hab : TabRel P a b) : b = p.1 ↔ a = p.1 := by
  have hk := h.keys
  rw [List.map_append, List.nodup_append] at hk
  have hp : p.1 ∉ P.map Prod.fst := fun hm => hk.2.2 _ hm p.1 (by simp) rfl
  unfold TabRel at hab
  split at hab
  · rename_i ws hl
    obtain ⟨w, hw, rfl⟩ := hab
    have hm := lookup_mem_tab hl
    have h1 : String.ofList w ≠ p.1 := fun e => h.words (a, ws) (by simp [hm]) w hw (by simp [e])
    have h2 : a ≠ p.1 := by
      rintro rfl
      exact hp (List.mem_map.2 ⟨_, hm, rfl⟩)
    exact iff_of_false h1 h2
  · rw [hab]

theorem tabRel_snoc {P : List (String × List (List Char))} {p : String × List (List Char)} (h : TabOk (P ++ [p]))
    (a c : String) : (∃ b, TabRel P a b ∧ PlugRel p.1 p.2 b c) ↔ TabRel (P ++ [p]) a c := by
  have hk := h.keys
  rw [List.map_append, List.nodup_append] at hk
  have hp : p.1 ∉ P.map Prod.fst := fun hm => hk.2.2 _ hm p.1 (by simp) rfl
  by_cases ha : a = p.1
  · subst ha
    have e : TabRel P p.1 = fun b => b = p.1 := by
      funext b
      rw [TabRel, lookup_none_of_not_mem hp]
    have e' : (P ++ [p]).lookup p.1 = some p.2 := by
      rw [List.lookup_append, lookup_none_of_not_mem hp]; simp [List.lookup]
    rw [TabRel, e', e]
    simp [PlugRel]
  · have e' : (P ++ [p]).lookup a = P.lookup a := by
      rw [List.lookup_append]
      have : ([p] : List _).lookup a = none := lookup_none_of_not_mem (by simpa using ha)
      rw [this]; simp
    have : TabRel (P ++ [p]) a c ↔ TabRel P a c := by rw [TabRel, TabRel, e']
    rw [this]
    constructor
    · rintro ⟨b, h1, h2⟩
      have hb : b ≠ p.1 := fun e => ha ((TabRel.keeps h h1).1 e)
      rw [PlugRel, if_neg hb] at h2
      rwa [h2]
    · intro h1
      have hb : c ≠ p.1 := fun e => ha ((TabRel.keeps h h1).1 e)
      exact ⟨c, h1, by rw [PlugRel, if_neg hb]⟩

theorem doPlug_words {w : Workload} (hw : AllSets NoEmpty w) {name : String} {ws : List (List Char)}
    (hn : LiteralName name) : AllSets NoEmpty (w.doPlug name (.set (ws.map word))) ∧
    ∀ t, t ∈ (w.doPlug name (.set (ws.map word))).forceT ↔ ∃ s ∈ w.forceT, Maps (PlugRel name ws) s t := by
  have hp : AllSets NoEmpty (.set (ws.map word)) := .set fun t ht => by
    obtain ⟨x, -, rfl⟩ := List.mem_map.1 ht
    exact NoEmpty.atom _
  obtain ⟨ts, ps, rs, h1, h2, h3, h4⟩ := C04_plug_fills w _ name hw hp fun _ => hn
  refine ⟨Workload.AllSets.doPlug hw hp, fun t => ?_⟩
  rw [← Workload.force_some _ _ h3, h4, ← Workload.force_some _ _ h1]
  cases h2
  simp only [fills_maps]

theorem plugAll_snoc (w : Workload) (P : List (String × List (List Char))) (p : String × List (List Char)) :
    plugAll w (P ++ [p]) = (plugAll w P).doPlug p.1 (.set (p.2.map word)) := by
  rw [plugAll, List.foldl_append]; rfl

theorem plugAll_spec {w : Workload} (hw : AllSets NoEmpty w) {P : List (String × List (List Char))} (h : TabOk P) :
    AllSets NoEmpty (plugAll w P) ∧
    ∀ t, t ∈ (plugAll w P).forceT ↔ ∃ s ∈ w.forceT, Maps (TabRel P) s t := by
  induction P using List.reverseRecOn with
  | nil =>
    refine ⟨hw, fun t => ?_⟩
    have : TabRel [] = fun a b => b = a := rfl
    rw [this]
    simp only [maps_eq]
    exact ⟨fun h => ⟨t, h, rfl⟩, fun ⟨s, h, e⟩ => e ▸ h⟩
  | append_singleton P p ih =>
    obtain ⟨h1, h2⟩ := ih h.init
    rw [plugAll_snoc]
    obtain ⟨h3, h4⟩ := doPlug_words (name := p.1) (ws := p.2) h1 (h.lits p (by simp))
    refine ⟨h3, fun t => ?_⟩
    rw [h4]
    have e : TabRel (P ++ [p]) = fun a c => ∃ b, TabRel P a b ∧ PlugRel p.1 p.2 b c := by
      funext a c; exact propext (tabRel_snoc h a c).symm
    rw [e]
    simp only [← maps_comp, h2]
    constructor
    · rintro ⟨u, ⟨s, hs, hu⟩, ht⟩; exact ⟨s, hs, u, hu, ht⟩
    · rintro ⟨s, hs, u, hu, ht⟩; exact ⟨u, ⟨s, hs, hu⟩, ht⟩

theorem maps_cancel {σ : String → String → Prop} {name : String} {ws : List (List Char)}
    (hk : ∀ a b, σ a b → (b = name ↔ a = name)) {s u u' t : Sexp} (h1 : Maps σ s u) (h2 : Maps σ s u')
    (h3 : Maps (PlugRel name ws) u t) (h4 : Maps (PlugRel name ws) u' t) : u = u' := by
  induction s using Sexp.ind generalizing u u' t with
  | ha a =>
    obtain ⟨b, rfl, hb⟩ := maps_atom.1 h1
    obtain ⟨b', rfl, hb'⟩ := maps_atom.1 h2
    obtain ⟨c, rfl, hc⟩ := maps_atom.1 h3
    obtain ⟨c', e, hc'⟩ := maps_atom.1 h4
    cases e
    by_cases ha : a = name
    · rw [(hk a b hb).2 ha, (hk a b' hb').2 ha]
    · have e1 : b ≠ name := fun e => ha ((hk a b hb).1 e)
      have e2 : b' ≠ name := fun e => ha ((hk a b' hb').1 e)
      rw [PlugRel, if_neg e1] at hc
      rw [PlugRel, if_neg e2] at hc'
      rw [← hc, hc']
  | hl l ih =>
    obtain ⟨l1, rfl, k1⟩ := maps_list.1 h1
    obtain ⟨l2, rfl, k2⟩ := maps_list.1 h2
    obtain ⟨l3, rfl, k3⟩ := maps_list.1 h3
    obtain ⟨l4, e, k4⟩ := maps_list.1 h4
    cases e
    clear h1 h2 h3 h4
    congr 1
    induction l generalizing l1 l2 l3 with
    | nil => cases k1; cases k2; rfl
    | cons x l ih' =>
      cases k1 with
      | cons a1 b1 =>
      cases k2 with
      | cons a2 b2 =>
      cases k3 with
      | cons a3 b3 =>
      cases k4 with
      | cons a4 b4 =>
      rw [ih x (by simp) a1 a2 a3 a4, ih' (fun s hs => ih s (by simp [hs])) _ b1 _ b2 _ b3 b4]

theorem plugAll_nodup {w : Workload} (hw : AllSets NoEmpty w) (hd : w.forceT.Nodup)
    {P : List (String × List (List Char))} (h : TabOk P) (hp : ∀ p ∈ P, p.2.Nodup)
    (hu : ∀ Q, Q <+: P → ∀ s ∈ w.forceT, ∀ s' ∈ w.forceT, ∀ t, Maps (TabRel Q) s t → Maps (TabRel Q) s' t → s = s') :
    (plugAll w P).forceT.Nodup := by
  induction P using List.reverseRecOn with
  | nil => exact hd
  | append_singleton P p ih =>
    have ih := ih h.init (fun q hq => hp q (by simp [hq])) fun Q hQ => hu Q (hQ.trans (List.prefix_append _ _))
    obtain ⟨h1, h2⟩ := plugAll_spec hw h.init
    rw [plugAll_snoc]
    unfold Workload.doPlug
    split
    · rw [Workload.forceT_addFilter]
      exact ih.filter _
    · rw [Workload.forceT, List.nodup_flatMap]
      have hpn : (p.2.map word).Nodup := by
        refine (hp p (by simp)).map ?_
        intro x y e
        have := congrArg String.toList (Sexp.atom.inj e)
        rwa [String.toList_ofList, String.toList_ofList] at this
      refine ⟨fun t _ => Sexp.nodup_plug hpn t, ?_⟩
      refine ih.imp_of_mem ?_
      intro u u' hm hm' hne t ht ht'
      obtain ⟨s, hs, hsu⟩ := (h2 u).1 hm
      obtain ⟨s', hs', hsu'⟩ := (h2 u').1 hm'
      have e1 := fills_maps.1 (Sexp.mem_plug_fills ht)
      have e2 := fills_maps.1 (Sexp.mem_plug_fills ht')
      have e : TabRel (P ++ [p]) = fun a c => ∃ b, TabRel P a b ∧ PlugRel p.1 p.2 b c := by
        funext a c; exact propext (tabRel_snoc h a c).symm
      have : s = s' := hu _ (List.prefix_refl _) s hs s' hs' t (e ▸ maps_comp.1 ⟨u, hsu, e1⟩) (e ▸ maps_comp.1 ⟨u', hsu', e2⟩)
      subst this
      exact hne (maps_cancel (fun a b hab => TabRel.keeps h hab) hsu hsu' e1 e2)

/-! ## The workloads of `recursive_rules` -/

theorem ofTexts_words {ws : List (List Char)} (h : ∀ t ∈ ws, Plain (String.ofList t)) :
    Workload.ofTexts ws = some (.set (ws.map word)) := by
  have : ws.mapM Sexp.parse = some (ws.map word) := by
    have hp : ∀ t ∈ ws, Sexp.parse t = some (word t) := by
      intro t ht
      have := C14_print_parse (word t) (plainTerm_atom_iff.2 (h t ht))
      rwa [word, Sexp.print, String.toList_ofList] at this
    clear h
    induction ws with
    | nil => rfl
    | cons t ws ih =>
      rw [List.mapM_cons, hp t (by simp), ih fun t ht => hp t (by simp [ht])]
      rfl
  rw [Workload.ofTexts, this]; rfl

theorem Skeleton.head {k : Nat} {s : Sexp} (h : Skeleton k s) : s = .atom "VAR" ∨ s = .atom "VAL" ∨
    ∃ i args, 1 ≤ i ∧ i ≤ k ∧ args.length = i ∧ (∀ a ∈ args, Skeleton k a) ∧
      s = .list (.atom ("OP" ++ toString i) :: args) := by
  cases h with
  | var => exact .inl rfl
  | val => exact .inr (.inl rfl)
  | op h1 h2 h3 h4 => exact .inr (.inr ⟨_, _, h1, h2, h3, h4, rfl⟩)

/-- The skeleton of a term is unique. -/
theorem skeleton_unique {k : Nat} {σ : String → String → Prop} (hap : ∀ b, σ "VAR" b → σ "VAL" b → False) {s s' t : Sexp}
    (hs : Skeleton k s) (hs' : Skeleton k s') (h : Maps σ s t) (h' : Maps σ s' t) : s = s' := by
  induction s using Sexp.ind generalizing s' t with
  | ha a =>
    obtain ⟨b, rfl, hb⟩ := maps_atom.1 h
    rcases Skeleton.head hs' with rfl | rfl | ⟨i, args, -, -, -, -, rfl⟩
    · rcases Skeleton.head hs with e | e | ⟨_, _, -, -, -, -, e⟩
      · exact e
      · cases e; exact (hap b h' hb).elim
      · cases e
    · rcases Skeleton.head hs with e | e | ⟨_, _, -, -, -, -, e⟩
      · cases e; exact (hap b hb h').elim
      · exact e
      · cases e
    · obtain ⟨_, e, -⟩ := maps_list.1 h'; cases e
  | hl l ih =>
    obtain ⟨l', rfl, k1⟩ := maps_list.1 h
    rcases Skeleton.head hs with e | e | ⟨i, args, -, -, h3, h4, e⟩
    · cases e
    · cases e
    rcases Skeleton.head hs' with rfl | rfl | ⟨i', args', -, -, h3', h4', rfl⟩
    · obtain ⟨_, e, -⟩ := maps_atom.1 h'; cases e
    · obtain ⟨_, e, -⟩ := maps_atom.1 h'; cases e
    cases e
    obtain ⟨l'', e, k2⟩ := maps_list.1 h'
    cases e
    cases k1 with
    | cons _ k1 =>
    cases k2 with
    | cons _ k2 =>
    have hlen : i = i' := by rw [← h3, ← h3', k1.length_eq, k2.length_eq]
    subst hlen
    have : args = args' := by
      clear h h' hs hs' h3 h3'
      have ih : ∀ s ∈ args, ∀ {s' t : Sexp}, Skeleton k s → Skeleton k s' → Maps σ s t → Maps σ s' t → s = s' :=
        fun s hm => ih s (by simp [hm])
      clear * - ih h4 h4' k1 k2
      induction k1 generalizing args' with
      | nil => cases k2; rfl
      | cons a1 _ ih' =>
        cases k2 with
        | cons a2 b2 =>
          rw [ih _ (by simp) (h4 _ (by simp)) (h4' _ (by simp)) a1 a2,
            ih' (fun a ha => h4 a (by simp [ha])) _ (fun a ha => h4' a (by simp [ha])) b2 fun s hs => ih s (by simp [hs])]
    rw [this]

/-- The holes for operators. -/
def opTab : Nat → List (List (List Char)) → List (String × List (List Char))
  | _, [] => []
  | i, os :: rest => ("OP" ++ toString (i + 1), os) :: opTab (i + 1) rest

/-- The holes of the grammar of a language, and what is put there. -/
def langTab (L : RecipeLang) : List (String × List (List Char)) :=
  ("VAR", L.vars) :: ("VAL", L.vals) :: opTab 0 L.ops

theorem plugOps_words {ops : List (List (List Char))} (h : ∀ os ∈ ops, ∀ t ∈ os, Plain (String.ofList t)) (i : Nat)
    (w : Workload) : plugOps i ops w = some (plugAll w (opTab i ops)) := by
  induction ops generalizing i w with
  | nil => rfl
  | cons os ops ih =>
    rw [plugOps, ofTexts_words (h os (by simp))]
    exact ih (fun os hos => h os (by simp [hos])) _ _

theorem recursiveWorkload_words {L : RecipeLang} (h : LangOk L) (met : Metric) (n : Nat) :
    recursiveWorkload met n L = some (plugAll
      ((iterMetric (baseLang L.ops.length) "EXPR" met n).addFilter (.contains (.lit "VAR"))) (langTab L)) := by
  have e : (if L.ops.length = 2 then baseLang 2 else baseLang 3) = baseLang L.ops.length := by
    rcases h.arities with e | e <;> rw [e] <;> rfl
  unfold recursiveWorkload
  rw [ofTexts_words fun t ht => h.words t (.inr (.inl ht)), ofTexts_words fun t ht => h.words t (.inl ht), e]
  exact plugOps_words (fun os hos t ht => h.words t (.inr (.inr ⟨os, hos, ht⟩))) 0 _

theorem langTab_mem {L : RecipeLang} {p : String × List (List Char)} (h : p ∈ langTab L) :
    p.2 = L.vars ∨ p.2 = L.vals ∨ p.2 ∈ L.ops := by
  have key : ∀ (ops : List (List (List Char))) i, p ∈ opTab i ops → p.2 ∈ ops := by
    intro ops
    induction ops with
    | nil => intro i h; cases h
    | cons os ops ih =>
      intro i h
      rcases List.mem_cons.1 h with rfl | h
      · simp
      · exact List.mem_cons_of_mem _ (ih _ h)
  rcases List.mem_cons.1 h with rfl | h
  · exact .inl rfl
  rcases List.mem_cons.1 h with rfl | h
  · exact .inr (.inl rfl)
  · exact .inr (.inr (key _ _ h))

theorem langTab_keys {L : RecipeLang} (h : LangOk L) : (langTab L).map Prod.fst = ["VAR", "VAL", "OP1", "OP2"] ∨
    (langTab L).map Prod.fst = ["VAR", "VAL", "OP1", "OP2", "OP3"] := by
  obtain ⟨vals, vars, ops⟩ := L
  rcases h.arities with e | e
  · match ops, e with
    | [a, b], _ => exact .inl rfl
  · match ops, e with
    | [a, b, c], _ => exact .inr rfl

theorem langTab_ok {L : RecipeLang} (h : LangOk L) : TabOk (langTab L) := by
  refine ⟨?_, fun p hp w hw hm => ?_, fun p hp => ?_⟩
  · rcases langTab_keys h with e | e <;> rw [e] <;> decide
  · have ht : RecipeLang.Text L w := by
      rcases langTab_mem hp with e | e | e
      · exact .inr (.inl (e ▸ hw))
      · exact .inl (e ▸ hw)
      · exact .inr (.inr ⟨_, e, hw⟩)
    refine h.holes w ht ?_
    rcases langTab_keys h with e | e
    · rw [e] at hm
      simp only [List.mem_cons, List.not_mem_nil, or_false] at hm ⊢
      tauto
    · rwa [e] at hm
  · have hm : p.1 ∈ (langTab L).map Prod.fst := List.mem_map_of_mem hp
    have all : ∀ x ∈ ["VAR", "VAL", "OP1", "OP2", "OP3"], LiteralName x := by decide
    refine all _ ?_
    rcases langTab_keys h with e | e
    · rw [e] at hm
      simp only [List.mem_cons, List.not_mem_nil, or_false] at hm ⊢
      tauto
    · rwa [e] at hm

theorem langTab_var {L : RecipeLang} {b : String} : TabRel (langTab L) "VAR" b ↔ ∃ w ∈ L.vars, b = String.ofList w := Iff.rfl

theorem langTab_val {L : RecipeLang} {b : String} : TabRel (langTab L) "VAL" b ↔ ∃ w ∈ L.vals, b = String.ofList w := Iff.rfl

theorem langTab_op {L : RecipeLang} (h : LangOk L) {i : Nat} (hi : i < L.ops.length) {b : String} :
    TabRel (langTab L) ("OP" ++ toString (i + 1)) b ↔ ∃ w ∈ L.ops[i], b = String.ofList w := by
  obtain ⟨vals, vars, ops⟩ := L
  have hi' : i < ops.length := hi
  rcases h.arities with e | e
  · match ops, e with
    | [a, b], _ =>
      match i, hi' with
      | 0, _ => exact Iff.rfl
      | 1, _ => exact Iff.rfl
  · match ops, e with
    | [a, b, c], _ =>
      match i, hi' with
      | 0, _ => exact Iff.rfl
      | 1, _ => exact Iff.rfl
      | 2, _ => exact Iff.rfl

theorem forall₂_exists {A B : Type} {R : A → B → Prop} {l' : List B} (h : ∀ b ∈ l', ∃ a, R a b) :
    ∃ l, List.Forall₂ R l l' := by
  induction l' with
  | nil => exact ⟨[], .nil⟩
  | cons b l' ih =>
    obtain ⟨a, ha⟩ := h b (by simp)
    obtain ⟨l, hl⟩ := ih fun b hb => h b (by simp [hb])
    exact ⟨a :: l, .cons ha hl⟩

theorem forall₂_mem_right {A B : Type} {R : A → B → Prop} {l : List A} {l' : List B} (h : List.Forall₂ R l l') {b : B}
    (hb : b ∈ l') : ∃ a ∈ l, R a b := by
  induction h with
  | nil => cases hb
  | cons h1 _ ih =>
    rcases List.mem_cons.1 hb with rfl | hb
    · exact ⟨_, by simp, h1⟩
    · obtain ⟨a, h1, h2⟩ := ih hb
      exact ⟨a, by simp [h1], h2⟩

theorem forall₂_mem_left {A B : Type} {R : A → B → Prop} {l : List A} {l' : List B} (h : List.Forall₂ R l l') {a : A}
    (ha : a ∈ l) : ∃ b ∈ l', R a b := by
  induction h with
  | nil => cases ha
  | cons h1 _ ih =>
    rcases List.mem_cons.1 ha with rfl | ha
    · exact ⟨_, by simp, h1⟩
    · obtain ⟨a, h1, h2⟩ := ih ha
      exact ⟨a, by simp [h1], h2⟩

theorem langTerm_of_skeleton {L : RecipeLang} (h : LangOk L) {s t : Sexp} (hs : Skeleton L.ops.length s)
    (hm : Maps (TabRel (langTab L)) s t) : LangTerm L t ∧ (HasWord L.vars t ↔ Subterm (.atom "VAR") s) := by
  induction s using Sexp.ind generalizing t with
  | ha a =>
    obtain ⟨b, rfl, hb⟩ := maps_atom.1 hm
    rcases Skeleton.head hs with e | e | ⟨_, _, -, -, -, -, e⟩
    · cases e
      obtain ⟨w, hw, rfl⟩ := langTab_var.1 hb
      exact ⟨.var hw, iff_of_true (.here hw) (.refl _)⟩
    · cases e
      obtain ⟨w, hw, rfl⟩ := langTab_val.1 hb
      refine ⟨.val hw, iff_of_false ?_ (not_subterm_atom (by decide))⟩
      intro hv
      generalize e : Sexp.atom (String.ofList w) = x at hv
      cases hv with
      | @here t ht =>
        have := congrArg String.toList (Sexp.atom.inj e)
        rw [String.toList_ofList, String.toList_ofList] at this
        exact h.disjoint t ht (this ▸ hw)
      | arg => cases e
    · cases e
  | hl l ih =>
    rcases Skeleton.head hs with e | e | ⟨i, args, h1, h2, h3, h4, e⟩
    · cases e
    · cases e
    cases e
    obtain ⟨l', rfl, k⟩ := maps_list.1 hm
    cases k with
    | @cons _ o _ args' k1 k2 =>
    obtain ⟨b, rfl, hb⟩ := maps_atom.1 k1
    obtain ⟨j, rfl⟩ : ∃ j, i = j + 1 := ⟨i - 1, by omega⟩
    obtain ⟨w, hw, rfl⟩ := (langTab_op h (by omega)).1 hb
    have ih' : ∀ {a t}, a ∈ args → Maps (TabRel (langTab L)) a t →
        LangTerm L t ∧ (HasWord L.vars t ↔ Subterm (.atom "VAR") a) := fun ha => ih _ (by simp [ha]) (h4 _ ha)
    refine ⟨.app (os := L.ops[j]) (List.getElem?_eq_getElem (by omega)) hw (by rw [← k2.length_eq, h3]) fun a ha => ?_, ?_⟩
    · obtain ⟨a', ha', hmap⟩ := forall₂_mem_right k2 ha
      exact (ih' ha' hmap).1
    · constructor
      · intro hv
        cases hv with
        | arg ha hv =>
          obtain ⟨a', ha', hmap⟩ := forall₂_mem_right k2 ha
          exact .child (by simp [ha']) ((ih' ha' hmap).2.1 hv)
      · intro hv
        cases hv with
        | child ha hv =>
          rcases List.mem_cons.1 ha with rfl | ha
          · have := Subterm.atom_iff.1 hv
            have := congrArg (fun s => s.toList.head?) (Sexp.atom.inj this)
            simp at this
          · obtain ⟨t', ht', hmap⟩ := forall₂_mem_left k2 ha
            exact .arg ht' ((ih' ha hmap).2.2 hv)

theorem skeleton_of_langTerm {L : RecipeLang} (h : LangOk L) {t : Sexp} (ht : LangTerm L t) :
    ∃ s, Skeleton L.ops.length s ∧ Maps (TabRel (langTab L)) s t := by
  induction ht with
  | val hw => exact ⟨_, .val, maps_atom.2 ⟨_, rfl, langTab_val.2 ⟨_, hw, rfl⟩⟩⟩
  | var hw => exact ⟨_, .var, maps_atom.2 ⟨_, rfl, langTab_var.2 ⟨_, hw, rfl⟩⟩⟩
  | @app i os o args h1 h2 h3 _ ih =>
    obtain ⟨l, hl⟩ := forall₂_exists ih
    obtain ⟨hi, rfl⟩ := List.getElem?_eq_some_iff.1 h1
    refine ⟨.list (.atom ("OP" ++ toString (i + 1)) :: l), .op (by omega) (by omega) (by rw [hl.length_eq, h3]) fun a ha => ?_, ?_⟩
    · obtain ⟨b, -, hb⟩ := forall₂_mem_left hl ha
      exact hb.1
    · refine maps_list.2 ⟨_, rfl, .cons (maps_atom.2 ⟨_, rfl, (langTab_op h hi).2 ⟨_, h2, rfl⟩⟩) ?_⟩
      exact hl.imp fun _ _ h => h.2

theorem langTab_apart {L : RecipeLang} (h : LangOk L) {Q : List (String × List (List Char))} (hQ : Q <+: langTab L)
    (b : String) (h1 : TabRel Q "VAR" b) (h2 : TabRel Q "VAL" b) : False := by
  match Q, hQ with
  | [], _ =>
    have : "VAR" = "VAL" := h1.symm.trans h2
    exact absurd this (by decide)
  | [p], hQ =>
    obtain ⟨R, hR⟩ := hQ
    cases hR
    obtain ⟨w, hw, rfl⟩ := h1
    have e : String.ofList w = "VAL" := h2
    exact h.holes w (.inr (.inl hw)) (by rw [e]; decide)
  | p :: q :: Q, hQ =>
    obtain ⟨R, hR⟩ := hQ
    obtain ⟨e1, k⟩ := List.cons.inj hR
    obtain ⟨e2, -⟩ := List.cons.inj k
    clear hR k
    subst e1 e2
    obtain ⟨w, hw, rfl⟩ := h1
    obtain ⟨w', hw', e⟩ := h2
    have := congrArg String.toList e
    rw [String.toList_ofList, String.toList_ofList] at this
    exact h.disjoint w hw (this ▸ hw')

end Ruler
