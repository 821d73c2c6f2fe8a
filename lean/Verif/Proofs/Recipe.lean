import Verif.Model.Recipe
import Verif.Spec.Grammar
import Verif.Proofs.Plug
/-! Helper lemmas for grammar iteration and substitution. -/
namespace Ruler
open Spec

theorem Workload.forceT_doPlug {w pegs : Workload} {name : String} (h : pegs ≠ .set [] ∨ w.forceT = []) :
    (w.doPlug name pegs).forceT = w.forceT.flatMap (Sexp.plug name pegs.forceT) := by
  unfold Workload.doPlug
  split
  · rcases h with h | h
    · exact absurd rfl h
    · rw [Workload.forceT_addFilter, h]; rfl
  · rfl

theorem addFilter_ne_set (w : Workload) (f : Filter) (xs : List Sexp) : w.addFilter f ≠ .set xs := by
  induction w using Workload.ind generalizing f with
  | h1 => simp [Workload.addFilter]
  | h2 w n p =>
    simp only [Workload.addFilter]; split <;> simp
  | h3 g w ih => exact ih _
  | h4 => simp [Workload.addFilter]

theorem iterMetric_sets {w : Workload} (hw : AllSets NoEmpty w) (name : String) (met : Metric) (n : Nat) :
    AllSets NoEmpty (iterMetric w name met n) := by
  induction n with
  | zero => exact hw
  | succ n ih => exact Workload.AllSets.addFilter (Workload.AllSets.doPlug hw ih) _

theorem iterMetric_ne (w : Workload) (name : String) (met : Metric) (n : Nat) :
    iterMetric w name met n ≠ .set [] ∨ w.forceT = [] := by
  cases n with
  | zero =>
    by_cases h : w = .set []
    · right; rw [h]; rfl
    · exact .inl h
  | succ n => exact .inl (addFilter_ne_set _ _ _)

theorem iterMetric_forceT_succ (w : Workload) (name : String) (met : Metric) (n : Nat) :
    (iterMetric w name met (n + 1)).forceT =
      (w.forceT.flatMap (Sexp.plug name (iterMetric w name met n).forceT)).filter
        fun t => decide (t.measureT met < n + 1 + 1) := by
  simp only [iterMetric]
  rw [Workload.forceT_addFilter, Workload.forceT_doPlug (iterMetric_ne w name met n)]
  rfl

/-! ### measures of fillings -/

theorem Fills.peg_restrict {name : String} {P : Sexp → Prop} {t t' : Sexp} (h : Fills name P t t') :
    Fills name (fun p => P p ∧ Subterm p t' ∧ Subterm (.atom name) t) t t' := by
  induction t using Sexp.ind generalizing t' with
  | ha a => cases h with
    | hole hp => exact .hole ⟨hp, .refl _, .refl _⟩
    | other hn => exact .other hn
  | hl l ih => cases h with
    | @list _ l' h =>
      rw [fillsL_iff] at h
      refine .list (fillsL_iff.2 ?_)
      suffices H : ∀ (k k' : List Sexp), List.Forall₂ (Fills name P) k k' → (∀ s ∈ k, s ∈ l) → (∀ s ∈ k', s ∈ l') →
          List.Forall₂ (Fills name (fun p => P p ∧ Subterm p (.list l') ∧ Subterm (.atom name) (.list l))) k k' from
        H l l' h (fun _ h => h) (fun _ h => h)
      intro k k' hk
      induction hk with
      | nil => intros; exact .nil
      | @cons s s' k k' h1 _ ih2 =>
        intro hs hs'
        refine .cons ?_ (ih2 (fun u hu => hs u (by simp [hu])) (fun u hu => hs' u (by simp [hu])))
        refine Fills.mono ?_ (ih s (hs s (by simp)) h1)
        rintro p ⟨h1, h2, h3⟩
        exact ⟨h1, .child (hs' s' (by simp)) h2, .child (hs s (by simp)) h3⟩

theorem one_le_atoms {s : Sexp} (h : NoEmpty s) : 1 ≤ s.measureT .atoms := by
  induction s using Sexp.ind with
  | ha a => exact Nat.le_refl _
  | hl l ih =>
    rw [NoEmpty.list_iff] at h
    cases l with
    | nil => exact absurd rfl h.1
    | cons t l =>
      exact Nat.le_trans (ih t (by simp) (h.2 t (by simp))) (Sexp.measureT_child (by simp))

theorem subterm_lt_of_ne {m : Metric} (hm : m ≠ .atoms) {s t : Sexp} (h : Subterm s t) (hne : s ≠ t) :
    s.measureT m < t.measureT m := by
  cases h with
  | refl => exact absurd rfl hne
  | @child u l hu hs =>
    have h1 := Sexp.measureT_mono (m := m) hs
    have h2 : Sexp.measureT m u ∈ Sexp.measureTL m l := by
      rw [Sexp.measureTL_eq]; exact List.mem_map_of_mem hu
    cases m with
    | atoms => exact absurd rfl hm
    | lists => have := list_le_sum h2; simp only [Sexp.measureT]; omega
    | depth => have := list_le_foldr_max h2; simp only [Sexp.measureT]; omega

theorem sum_ge_length {l : List Nat} (h : ∀ x ∈ l, 1 ≤ x) : l.length ≤ l.sum := by
  induction l with
  | nil => simp
  | cons a l ih =>
    have := ih fun x hx => h x (by simp [hx])
    have := h a (by simp)
    simp; omega

/-- Every peg of a filling strictly decreases, in the form needed below. -/
theorem Fills.peg_lt {met : Metric} {name : String} {P : Sexp → Prop} {g t : Sexp}
    (hP : ∀ p, P p → NoEmpty p) (hn : NoEmpty g)
    (hg : Subterm (.atom name) g → g ≠ .atom name ∧ (met = .atoms → 2 ≤ g.measureT .atoms))
    (h : Fills name P g t) : Fills name (fun p => P p ∧ p.measureT met < t.measureT met) g t := by
  cases g with
  | atom a =>
    cases h with
    | hole hp => exact absurd rfl (hg (.refl _)).1
    | other hn => exact .other hn
  | list l =>
    cases h with
    | @list _ l' h =>
    rw [fillsL_iff] at h
    refine .list (fillsL_iff.2 ?_)
    by_cases hm : met = .atoms
    · subst hm
      -- atoms metric: a filling has at least as many leaves as the template, pegs share the total
      have key : ∀ (g t : Sexp), NoEmpty g → Fills name P g t →
          Fills name (fun p => P p ∧ p.measureT .atoms + g.measureT .atoms ≤ t.measureT .atoms + 1) g t ∧
          g.measureT .atoms ≤ t.measureT .atoms := by
        intro g
        induction g using Sexp.ind with
        | ha a =>
          intro t _ h
          cases h with
          | hole hp => exact ⟨.hole ⟨hp, by simp [Sexp.measureT]⟩, by simpa [Sexp.measureT] using one_le_atoms (hP _ hp)⟩
          | other hn => exact ⟨.other hn, Nat.le_refl _⟩
        | hl k ih =>
          intro t hk h
          cases h with
          | @list _ k' h =>
          rw [fillsL_iff] at h
          rw [NoEmpty.list_iff] at hk
          replace hk := hk.2
          have : List.Forall₂ (Fills name (fun p => P p ∧
                p.measureT .atoms + (k.map (Sexp.measureT .atoms)).sum ≤ (k'.map (Sexp.measureT .atoms)).sum + 1)) k k' ∧
              (k.map (Sexp.measureT .atoms)).sum ≤ (k'.map (Sexp.measureT .atoms)).sum := by
            induction h with
            | nil => exact ⟨.nil, Nat.le_refl _⟩
            | @cons s s' k k' h1 _ ih2 =>
              obtain ⟨a1, a2⟩ := ih s (by simp) s' (hk s (by simp)) h1
              obtain ⟨b1, b2⟩ := ih2 (fun u hu => ih u (by simp [hu])) (fun u hu => hk u (by simp [hu]))
              simp only [List.map_cons, List.sum_cons]
              refine ⟨.cons (Fills.mono ?_ a1) (b1.imp fun a b hab => Fills.mono ?_ hab), by omega⟩
              · rintro p ⟨hp, hle⟩; exact ⟨hp, by omega⟩
              · rintro p ⟨hp, hle⟩; exact ⟨hp, by omega⟩
          simp only [Sexp.measureT, Sexp.measureTL_eq]
          exact ⟨.list (fillsL_iff.2 this.1), this.2⟩
      have hk := (key (.list l) (.list l') hn (.list (fillsL_iff.2 h))).1
      by_cases hs : Subterm (.atom name) (.list l)
      · have h2 := (hg hs).2 rfl
        have := Fills.mono (Q := fun p => P p ∧ p.measureT .atoms < (Sexp.list l').measureT .atoms)
          (fun p ⟨hp, hle⟩ => ⟨hp, by omega⟩) hk
        cases this with
        | list h => exact fillsL_iff.1 h
      · have := Fills.mono (Q := fun p => P p ∧ p.measureT .atoms < (Sexp.list l').measureT .atoms)
          (fun p ⟨_, _, h⟩ => absurd h hs) (Fills.peg_restrict (.list (fillsL_iff.2 h)))
        cases this with
        | list h => exact fillsL_iff.1 h
    · -- depth and lists: every peg is a proper sub-term
      suffices H : ∀ (k k' : List Sexp), List.Forall₂ (Fills name P) k k' → (∀ s ∈ k', s ∈ l') →
          List.Forall₂ (Fills name (fun p => P p ∧ p.measureT met < (Sexp.list l').measureT met)) k k' from
        H l l' h (fun _ h => h)
      intro k k' hk
      induction hk with
      | nil => intro _; exact .nil
      | @cons s s' k k' h1 _ ih2 =>
        intro hs'
        refine .cons (Fills.mono ?_ (Fills.peg_restrict h1)) (ih2 fun u hu => hs' u (by simp [hu]))
        rintro p ⟨hp, hsub, _⟩
        refine ⟨hp, Nat.lt_of_le_of_lt (Sexp.measureT_mono hsub) ?_⟩
        have h2 : Sexp.measureT met s' ∈ Sexp.measureTL met l' := by
          rw [Sexp.measureTL_eq]; exact List.mem_map_of_mem (hs' s' (by simp))
        cases met with
        | atoms => exact absurd rfl hm
        | lists => have := list_le_sum h2; simp only [Sexp.measureT]; omega
        | depth => have := list_le_foldr_max h2; simp only [Sexp.measureT]; omega

theorem Derives.ind {G : List Sexp} {hole : String} {motive : Sexp → Prop}
    (step : ∀ g t, g ∈ G → Fills hole (fun p => Derives G hole p ∧ motive p) g t → motive t) {t : Sexp}
    (h : Derives G hole t) : motive t := by
  refine Derives.rec (motive_1 := fun t _ => motive t)
    (motive_2 := fun g t _ => Fills hole (fun p => Derives G hole p ∧ motive p) g t)
    (motive_3 := fun g t _ => FillsL hole (fun p => Derives G hole p ∧ motive p) g t)
    ?_ ?_ ?_ ?_ ?_ ?_ h
  · intro g t hg _ ih; exact step g t hg ih
  · intro p hp ih; exact .hole ⟨hp, ih⟩
  · intro a ha; exact .other ha
  · intro l l' _ ih; exact .list ih
  · exact .nil
  · intro s s' l l' _ _ h1 h2; exact .cons h1 h2

theorem Derives.noEmpty {G : List Sexp} {name : String} (hG : ∀ g ∈ G, NoEmpty g) {t : Sexp}
    (h : Derives G name t) : NoEmpty t :=
  Derives.ind (motive := NoEmpty) (fun g _ hg hf => Sexp.Fills.noEmpty (fun _ hp => hp.2) (hG g hg) hf) h

theorem iterMetric_mem {w : Workload} {name : String} {met : Metric} (hw : AllSets NoEmpty w)
    (hg : ∀ g ∈ w.forceT, Subterm (.atom name) g →
      g ≠ .atom name ∧ (met = .atoms → 2 ≤ g.measureT .atoms)) (n : Nat) (t : Sexp)
    (ht : t.measureT met ≤ n) :
    t ∈ (iterMetric w name met n).forceT ↔ Derives w.forceT name t := by
  have hN := (Workload.AllSets.force hw).2
  induction n generalizing t with
  | zero =>
    simp only [iterMetric]
    have hnot : ∀ g ∈ w.forceT, g.measureT met ≤ 0 → ¬ Subterm (.atom name) g := by
      intro g hg' h0 hs
      have h1 := one_le_atoms (hN g hg')
      cases g with
      | atom a =>
        cases hs
        exact (hg _ hg' (.refl _)).1 rfl
      | list l =>
        cases met with
        | atoms => omega
        | lists => simp [Sexp.measureT] at h0
        | depth => simp [Sexp.measureT] at h0
    constructor
    · intro h
      refine .mk h (Fills.mono (P := fun _ => False) (by simp) (fills_false_iff.2 ⟨rfl, hnot t h ht⟩))
    · intro h
      cases h with
      | @mk g _ hgm hf =>
        have := Fills.peg_lt (met := met) (fun p hp => Derives.noEmpty hN hp) (hN g hgm) (hg g hgm) hf
        have := Fills.mono (Q := fun _ => False) (fun p ⟨_, h⟩ => by omega) this
        rw [fills_false_iff] at this
        rw [this.1]; exact hgm
  | succ n ih =>
    have hI := (Workload.AllSets.force (iterMetric_sets hw name met n)).2
    rw [iterMetric_forceT_succ, List.mem_filter, List.mem_flatMap]
    constructor
    · rintro ⟨⟨g, hgm, hp⟩, _⟩
      have hf := Sexp.mem_plug_fills hp
      have := Fills.peg_lt (met := met) (fun p hp => hI p hp) (hN g hgm) (hg g hgm) hf
      exact .mk hgm (Fills.mono (fun p ⟨hp, hlt⟩ => (ih p (by omega)).1 hp) this)
    · intro h
      cases h with
      | @mk g _ hgm hf =>
        refine ⟨⟨g, hgm, ?_⟩, by simp; omega⟩
        apply Sexp.fills_mem_plug (hN g hgm)
        have := Fills.peg_lt (met := met) (fun p hp => Derives.noEmpty hN hp) (hN g hgm) (hg g hgm) hf
        exact Fills.mono (fun p ⟨hp, hlt⟩ => (ih p (by omega)).2 hp) this

/-! ### duplicates -/

theorem iterMetric_nodup {w : Workload} {name : String} {met : Metric} (hd : w.forceT.Nodup)
    (hs : ∀ g ∈ w.forceT, ∀ g' ∈ w.forceT, g ≠ g' → ∀ P Q t, Fills name P g t → ¬ Fills name Q g' t) (n : Nat) :
    (iterMetric w name met n).forceT.Nodup := by
  induction n with
  | zero => exact hd
  | succ n ih =>
    rw [iterMetric_forceT_succ]
    refine List.Nodup.filter _ ?_
    rw [List.nodup_flatMap]
    refine ⟨fun g _ => Sexp.nodup_plug ih g, ?_⟩
    have := hd
    rw [List.Nodup, List.pairwise_iff_forall_sublist] at this
    rw [List.pairwise_iff_forall_sublist]
    intro g g' hsub
    have hne := this hsub
    have h1 : g ∈ w.forceT := hsub.subset (by simp)
    have h2 : g' ∈ w.forceT := hsub.subset (by simp)
    simp only [Function.onFun]
    intro t ht ht'
    exact hs g h1 g' h2 hne _ _ t (Sexp.mem_plug_fills ht) (Sexp.mem_plug_fills ht')

/-! ### the built-in grammar -/

theorem mem_baseLang {k : Nat} {g : Sexp} : g ∈ (baseLang k).forceT ↔
    g = .atom "VAR" ∨ g = .atom "VAL" ∨ ∃ i, 1 ≤ i ∧ i ≤ k ∧ g = opProduction i := by
  simp only [baseLang, Workload.forceT, List.mem_append, List.mem_cons, List.not_mem_nil, or_false,
    List.mem_map, List.mem_range, or_assoc]
  constructor
  · rintro (h | h | ⟨i, hi, rfl⟩)
    · exact .inl h
    · exact .inr (.inl h)
    · exact .inr (.inr ⟨i + 1, by omega, by omega, rfl⟩)
  · rintro (h | h | ⟨i, h1, h2, rfl⟩)
    · exact .inl h
    · exact .inr (.inl h)
    · exact .inr (.inr ⟨i - 1, by omega, by rw [Nat.sub_add_cancel h1]⟩)

theorem opProduction_noEmpty (i : Nat) : NoEmpty (opProduction i) := by
  unfold opProduction
  rw [NoEmpty.list_iff]
  refine ⟨by simp, ?_⟩
  intro t ht
  rcases List.mem_cons.1 ht with rfl | ht
  · exact NoEmpty.atom _
  · rw [List.eq_of_mem_replicate ht]; exact NoEmpty.atom _

theorem baseLang_sets (k : Nat) : AllSets NoEmpty (baseLang k) := by
  refine .set fun g hg => ?_
  have : g ∈ (baseLang k).forceT := hg
  rw [mem_baseLang] at this
  rcases this with rfl | rfl | ⟨i, _, _, rfl⟩
  · exact NoEmpty.atom _
  · exact NoEmpty.atom _
  · exact opProduction_noEmpty i

theorem baseLang_force (k : Nat) : (baseLang k).force = some (baseLang k).forceT := rfl

theorem opName_ne (i : Nat) : "OP" ++ toString i ≠ "EXPR" := by
  intro h
  have := congrArg (fun s => s.toList.head?) h
  simp at this

theorem measureT_opProduction (i : Nat) : (opProduction i).measureT .atoms = i + 1 := by
  simp [opProduction, Sexp.measureT, Sexp.measureTL_eq]
  omega

theorem opProduction_length {i j : Nat} {P Q : Sexp → Prop} {t : Sexp} (h : Fills "EXPR" P (opProduction i) t)
    (h' : Fills "EXPR" Q (opProduction j) t) : i = j := by
  unfold opProduction at h h'
  cases h with
  | list h =>
    cases h' with
    | list h' =>
      rw [fillsL_iff] at h h'
      have h1 := h.length_eq
      have h2 := h'.length_eq
      simp at h1 h2
      omega

theorem baseLang_separated (k : Nat) : ∀ g ∈ (baseLang k).forceT, ∀ g' ∈ (baseLang k).forceT, g ≠ g' →
    ∀ P Q t, Fills "EXPR" P g t → ¬ Fills "EXPR" Q g' t := by
  intro g hg g' hg' hne P Q t h h'
  have hatom : ∀ {a : String} {P : Sexp → Prop} {t : Sexp}, a ≠ "EXPR" → Fills "EXPR" P (.atom a) t → t = .atom a := by
    intro a P t ha h
    cases h with
    | hole => exact absurd rfl ha
    | other => rfl
  have hlist : ∀ {i : Nat} {P : Sexp → Prop} {a : String}, ¬ Fills "EXPR" P (opProduction i) (.atom a) := by
    intro i P a h; unfold opProduction at h; cases h
  rw [mem_baseLang] at hg hg'
  rcases hg with rfl | rfl | ⟨i, _, _, rfl⟩ <;> rcases hg' with rfl | rfl | ⟨j, _, _, rfl⟩
  · exact hne rfl
  · rw [hatom (by decide) h] at h'; have := hatom (by decide) h'; simp at this
  · rw [hatom (by decide) h] at h'; exact hlist h'
  · rw [hatom (by decide) h] at h'; have := hatom (by decide) h'; simp at this
  · exact hne rfl
  · rw [hatom (by decide) h] at h'; exact hlist h'
  · rw [hatom (by decide) h'] at h; exact hlist h
  · rw [hatom (by decide) h'] at h; exact hlist h
  · exact hne (by rw [opProduction_length h h'])

theorem baseLang_nodup (k : Nat) : (baseLang k).forceT.Nodup := by
  simp only [baseLang, Workload.forceT]
  rw [List.nodup_append]
  refine ⟨by decide, ?_, ?_⟩
  · refine List.Nodup.map ?_ List.nodup_range
    intro i j h
    have := congrArg (Sexp.measureT .atoms) h
    rw [measureT_opProduction, measureT_opProduction] at this
    omega
  · intro a ha b hb
    simp only [List.mem_cons, List.not_mem_nil, or_false] at ha
    rw [List.mem_map] at hb
    obtain ⟨i, _, rfl⟩ := hb
    rcases ha with rfl | rfl <;> simp [opProduction]

theorem skeleton_of_fills {k i : Nat} {P : Sexp → Prop} (hP : ∀ p, P p → Skeleton k p) (h1 : 1 ≤ i) (h2 : i ≤ k)
    {t : Sexp} (h : Fills "EXPR" P (opProduction i) t) : Skeleton k t := by
  unfold opProduction at h
  cases h with
  | @list _ l' h =>
    cases h with
    | @cons _ s' _ args ha hargs =>
      have : s' = .atom ("OP" ++ toString i) := by
        generalize hx : "OP" ++ toString i = x at ha
        cases ha with
        | hole => exact absurd hx (opName_ne i)
        | other => rfl
      subst this
      rw [fillsL_iff] at hargs
      refine .op h1 h2 (by simpa using hargs.length_eq.symm) ?_
      have : ∀ (n : Nat) (args : List Sexp), List.Forall₂ (Fills "EXPR" P) (List.replicate n (.atom "EXPR")) args →
          ∀ a ∈ args, Skeleton k a := by
        intro n
        induction n with
        | zero => intro args h; cases h; simp
        | succ n ih =>
          intro args h
          rw [List.replicate_succ] at h
          cases h with
          | @cons _ b _ bs hb hbs =>
          intro a ha
          rcases List.mem_cons.1 ha with rfl | ha
          · cases hb with
            | hole hp => exact hP _ hp
            | other hne => exact absurd rfl hne
          · exact ih _ hbs a ha
      exact this i args hargs

theorem fills_of_args {P : Sexp → Prop} {args : List Sexp} (h : ∀ a ∈ args, P a) :
    Fills "EXPR" P (opProduction args.length) (.list (.atom ("OP" ++ toString args.length) :: args)) := by
  refine .list (.cons (.other (opName_ne _)) (fillsL_iff.2 ?_))
  induction args with
  | nil => exact .nil
  | cons a args ih =>
    rw [List.length_cons, List.replicate_succ]
    exact .cons (.hole (h a (by simp))) (ih fun b hb => h b (by simp [hb]))

theorem derives_baseLang_iff (k : Nat) (t : Sexp) :
    Derives (baseLang k).forceT "EXPR" t ↔ Skeleton k t := by
  constructor
  · intro h
    refine Derives.ind (motive := Skeleton k) ?_ h
    intro g t hg hf
    rw [mem_baseLang] at hg
    rcases hg with rfl | rfl | ⟨i, h1, h2, rfl⟩
    · generalize hx : "VAR" = x at hf
      cases hf with
      | hole => simp at hx
      | other => rw [← hx]; exact .var
    · generalize hx : "VAL" = x at hf
      cases hf with
      | hole => simp at hx
      | other => rw [← hx]; exact .val
    · exact skeleton_of_fills (fun p hp => hp.2) h1 h2 hf
  · intro h
    induction h with
    | var => exact .mk (mem_baseLang.2 (.inl rfl)) (.other (by decide))
    | val => exact .mk (mem_baseLang.2 (.inr (.inl rfl))) (.other (by decide))
    | @op i args h1 h2 h3 _ ih =>
      subst h3
      exact .mk (mem_baseLang.2 (.inr (.inr ⟨_, h1, h2, rfl⟩))) (fills_of_args ih)

/-! ### substitution -/

theorem replaceAllL_eq (name : String) (s : Sexp) (l : List Sexp) :
    replaceAllL name s l = l.map (replaceAll name s) := by
  induction l with
  | nil => rfl
  | cons t l ih => simp [replaceAllL, ih]

theorem plug_singleton (name : String) (s t : Sexp) (hn : NoEmpty t) :
    Sexp.plug name [s] t = [replaceAll name s t] := by
  induction t using Sexp.ind with
  | ha a => simp only [Sexp.plug, replaceAll]; split <;> simp
  | hl l ih =>
    rw [NoEmpty.list_iff] at hn
    obtain ⟨hne, hn⟩ := hn
    have hm : Sexp.multiCartesianProduct (l.map (Sexp.plug name [s])) = Sexp.prods (l.map (Sexp.plug name [s])) := by
      cases l with
      | nil => exact absurd rfl hne
      | cons => rfl
    simp only [Sexp.plug, Sexp.plugL_eq, hm, replaceAll, replaceAllL_eq]
    have : Sexp.prods (l.map (Sexp.plug name [s])) = [l.map (replaceAll name s)] := by
      clear * - ih hn
      induction l with
      | nil => rfl
      | cons t l ihl =>
        simp only [List.map_cons, Sexp.prods, ih t (by simp) (hn t (by simp))]
        rw [ihl (fun t ht => ih t (by simp [ht])) (fun t ht => hn t (by simp [ht]))]
        rfl
    rw [this]; rfl

theorem flatMap_plug_singleton (name : String) (s : Sexp) (ts : List Sexp) (hn : ∀ t ∈ ts, NoEmpty t) :
    ts.flatMap (Sexp.plug name [s]) = ts.map (replaceAll name s) := by
  induction ts with
  | nil => rfl
  | cons t ts ih =>
    rw [List.flatMap_cons, plug_singleton name s t (hn t (by simp)), ih fun u hu => hn u (by simp [hu])]
    rfl

end Ruler
