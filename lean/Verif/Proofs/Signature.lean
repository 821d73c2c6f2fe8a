import Verif.Proofs.RecipeTerms
import Verif.Model.Derive
/-! Which atoms occur in the terms of a workload, and with how many arguments: a bound that can be computed. -/
namespace Ruler
open Spec

/-- Every atom occurs with a number of arguments that `H` allows; no list is empty, has only a head or has a list as head. -/
inductive Kinded (H : String → Nat → Prop) : Sexp → Prop
  | atom {a : String} : H a 0 → Kinded H (.atom a)
  | app {o : String} {args : List Sexp} : args ≠ [] → H o args.length → (∀ a ∈ args, Kinded H a) →
      Kinded H (.list (.atom o :: args))

abbrev Sig := List (String × Nat)

mutual
/-- The atoms of a term with their numbers of arguments. -/
def Sexp.sig : Sexp → Option Sig
  | .atom a => some [(a, 0)]
  | .list (.atom o :: a :: args) => (Sexp.sigL (a :: args)).map fun S => (o, args.length + 1) :: S
  | .list _ => none
def Sexp.sigL : List Sexp → Option Sig
  | [] => some []
  | s :: l => (Sexp.sig s).bind fun S => (Sexp.sigL l).map fun S' => S ++ S'
end

/-- Kinded by a computed signature. -/
abbrev KindedBy (S : Sig) : Sexp → Prop := Kinded fun a k => (a, k) ∈ S

theorem Kinded.mono {H H' : String → Nat → Prop} (h : ∀ a k, H a k → H' a k) {s : Sexp} (hs : Kinded H s) : Kinded H' s := by
  induction hs with
  | atom ha => exact .atom (h _ _ ha)
  | app h1 h2 _ ih => exact .app h1 (h _ _ h2) ih

mutual
theorem Sexp.sig_kinded : ∀ {s : Sexp} {S : Sig}, s.sig = some S → KindedBy S s
  | .atom a, S, h => by
    cases h
    exact .atom (by simp)
  | .list (.atom o :: a :: args), S, h => by
    simp only [Sexp.sig, Option.map_eq_some_iff] at h
    obtain ⟨S', h, rfl⟩ := h
    have := Sexp.sigL_kinded h
    exact .app (by simp) (by simp) fun b hb => (this b hb).mono fun _ _ h => List.mem_cons_of_mem _ h
  | .list [], _, h => by simp [Sexp.sig] at h
  | .list [.atom _], _, h => by simp [Sexp.sig] at h
  | .list (.list _ :: _), _, h => by simp [Sexp.sig] at h
theorem Sexp.sigL_kinded : ∀ {l : List Sexp} {S : Sig}, Sexp.sigL l = some S → ∀ s ∈ l, KindedBy S s
  | [], _, _ => by simp
  | s :: l, S, h => by
    simp only [Sexp.sigL, Option.bind_eq_some_iff, Option.map_eq_some_iff] at h
    obtain ⟨S1, h1, S2, h2, rfl⟩ := h
    have h3 := Sexp.sig_kinded h1
    intro t ht
    rcases List.mem_cons.1 ht with rfl | ht
    · exact h3.mono fun _ _ h => List.mem_append_left _ h
    · exact (Sexp.sigL_kinded h2 t ht).mono fun _ _ h => List.mem_append_right _ h
end

theorem Kinded.subterm {H : String → Nat → Prop} {a : String} {s t : Sexp} (ht : Kinded H t) (hs : Subterm s t)
    (e : s = .atom a) : ∃ k, H a k := by
  induction ht with
  | atom h =>
    rw [Subterm.atom_iff.1 hs] at e
    cases e
    exact ⟨_, h⟩
  | app h1 h2 _ ih =>
    rcases Subterm.list_iff.1 hs with rfl | ⟨u, hu, hsu⟩
    · cases e
    · rcases List.mem_cons.1 hu with rfl | hu
      · rw [Subterm.atom_iff.1 hsu] at e
        cases e
        exact ⟨_, h2⟩
      · exact ih u hu hsu

/-- Atoms that do not occur can be left out. -/
theorem Kinded.without {H : String → Nat → Prop} {P : String → Prop} {t : Sexp} (ht : Kinded H t)
    (h : ∀ a, Subterm (.atom a) t → P a) : Kinded (fun a k => H a k ∧ P a) t := by
  induction ht with
  | atom ha => exact .atom ⟨ha, h _ (.refl _)⟩
  | app h1 h2 _ ih =>
    exact .app h1 ⟨h2, h _ (.child (by simp) (.refl _))⟩ fun a ha => ih a ha fun b hb => h b (.child (List.mem_cons_of_mem _ ha) hb)

theorem FillsL.length_eq' {name : String} {P : Sexp → Prop} {l l' : List Sexp} (h : FillsL name P l l') : l'.length = l.length := by
  rw [fillsL_iff] at h
  exact h.length_eq.symm

/-- Plugging. -/
theorem Kinded.fills {H H' : String → Nat → Prop} {name : String} {P : Sexp → Prop}
    (hne : ∀ a k, a ≠ name → H a k → H' a k) (h0 : H name 0 → ∀ p, P p → Kinded H' p)
    (hk : ∀ k, k ≠ 0 → H name k → ∀ p, P p → ∃ b, p = .atom b ∧ H' b k) {s t : Sexp} (hs : Kinded H s)
    (h : Fills name P s t) : Kinded H' t := by
  induction hs generalizing t with
  | atom ha =>
    cases h with
    | hole hp => exact h0 ha _ hp
    | other hn => exact .atom (hne _ _ hn ha)
  | @app o args h1 h2 _ ih =>
    cases h with
    | list hl =>
      cases hl with
      | @cons _ s' _ l' ho hl =>
        have hlen := FillsL.length_eq' hl
        have hargs : ∀ a ∈ l', Kinded H' a := by
          rw [fillsL_iff] at hl
          clear * - hl ih
          induction hl with
          | nil => simp
          | cons h1 _ ih' =>
            intro a ha
            rcases List.mem_cons.1 ha with rfl | ha
            · exact ih _ (by simp) h1
            · exact ih' (fun b hb => ih b (List.mem_cons_of_mem _ hb)) a ha
        have hl0 : args.length ≠ 0 := by simpa using h1
        have hl1 : l' ≠ [] := by
          rintro rfl
          exact hl0 hlen.symm
        cases ho with
        | hole hp =>
          obtain ⟨b, rfl, hb⟩ := hk _ hl0 h2 _ hp
          exact .app hl1 (by rw [hlen]; exact hb) hargs
        | other hn => exact .app hl1 (by rw [hlen]; exact hne _ _ hn h2) hargs

mutual
/-- Names that a filter excludes. -/
def Filter.excluded : Filter → List String
  | .excludes (.lit a) => [a]
  | .and fs => Filter.excludedL fs
  | _ => []
def Filter.excludedL : List Filter → List String
  | [] => []
  | f :: fs => Filter.excluded f ++ Filter.excludedL fs
end

mutual
theorem Filter.excluded_spec : ∀ {f : Filter} {t : Sexp} {a : String}, f.testT t = true → a ∈ f.excluded → ¬ Subterm (.atom a) t
  | .excludes (.lit b), t, a, h, ha => by
    simp only [Filter.excluded, List.mem_singleton] at ha
    subst ha
    simp only [Filter.testT, Bool.not_eq_true'] at h
    intro hs
    rw [(containsTest_lit a t).2 hs] at h
    cases h
  | .and fs, t, a, h, ha => by
    simp only [Filter.testT] at h
    exact Filter.excludedL_spec h ha
  | .excludes (.var _), _, _, _, ha => by simp [Filter.excluded] at ha
  | .excludes .wild, _, _, _, ha => by simp [Filter.excluded] at ha
  | .excludes (.list _), _, _, _, ha => by simp [Filter.excluded] at ha
  | .metricLt _ _, _, _, _, ha => by simp [Filter.excluded] at ha
  | .metricEq _ _, _, _, _, ha => by simp [Filter.excluded] at ha
  | .contains _, _, _, _, ha => by simp [Filter.excluded] at ha
  | .canon _, _, _, _, ha => by simp [Filter.excluded] at ha
  | .or _, _, _, _, ha => by simp [Filter.excluded] at ha
  | .invert _, _, _, _, ha => by simp [Filter.excluded] at ha
theorem Filter.excludedL_spec : ∀ {fs : List Filter} {t : Sexp} {a : String}, Filter.testTAll fs t = true →
    a ∈ Filter.excludedL fs → ¬ Subterm (.atom a) t
  | [], _, _, _, ha => by simp [Filter.excludedL] at ha
  | f :: fs, t, a, h, ha => by
    simp only [Filter.testTAll, Bool.and_eq_true] at h
    rcases List.mem_append.1 ha with ha | ha
    · exact Filter.excluded_spec h.1 ha
    · exact Filter.excludedL_spec h.2 ha
end

mutual
/-- A bound on the signatures of the terms of a workload. -/
def Workload.sig : Workload → Option Sig
  | .set xs => Sexp.sigL xs
  | .plug w name pegs =>
    (Workload.sig w).bind fun s => (Workload.sig pegs).bind fun p =>
      let ops := s.filter fun q => decide (q.1 = name ∧ q.2 ≠ 0)
      if ops = [] ∨ p.all (fun q => q.2 == 0) = true then
        some (s.filter (fun q => decide (q.1 ≠ name)) ++ (if (name, 0) ∈ s then p else []) ++
          ops.flatMap fun q => p.map fun r => (r.1, q.2))
      else none
  | .filter f w => (Workload.sig w).map fun s => s.filter fun q => decide (q.1 ∉ f.excluded)
  | .append ws => Workload.sigL ws
def Workload.sigL : List Workload → Option Sig
  | [] => some []
  | w :: ws => (Workload.sig w).bind fun s => (Workload.sigL ws).map fun s' => s ++ s'
end

mutual
theorem Workload.sig_kinded : ∀ {w : Workload} {S : Sig}, w.sig = some S → ∀ t ∈ w.forceT, KindedBy S t
  | .set xs, S, h => fun t ht => Sexp.sigL_kinded h t ht
  | .plug w name pegs, S, h => by
    simp only [Workload.sig, Option.bind_eq_some_iff] at h
    obtain ⟨s, h1, p, h2, h⟩ := h
    split at h
    · rename_i hc
      cases h
      intro t ht
      obtain ⟨u, hu, ht⟩ := List.mem_flatMap.1 ht
      refine (Workload.sig_kinded h1 u hu).fills ?_ ?_ ?_ (Sexp.mem_plug_fills ht)
      · intro a k hne hm
        simp [hne, hm]
      · intro hm q hq
        refine (Workload.sig_kinded h2 q hq).mono fun a k h => ?_
        simp [hm, h]
      · intro k hk hm q hq
        rcases hc with hc | hc
        · have : (name, k) ∈ s.filter fun q => decide (q.1 = name ∧ q.2 ≠ 0) := by simp [hm, hk]
          rw [hc] at this
          simp at this
        · have hall := List.all_eq_true.1 hc
          cases Workload.sig_kinded h2 q hq with
          | @atom b hb =>
            refine ⟨b, rfl, List.mem_append_right _ (List.mem_flatMap.2 ⟨(name, k), by simp [hm, hk], ?_⟩)⟩
            exact List.mem_map.2 ⟨(b, 0), hb, rfl⟩
          | app e1 e2 _ =>
            have := hall _ e2
            simp [e1] at this
    · cases h
  | .filter f w, S, h => by
    simp only [Workload.sig, Option.map_eq_some_iff] at h
    obtain ⟨s, h1, rfl⟩ := h
    intro t ht
    obtain ⟨ht, hf⟩ := List.mem_filter.1 ht
    refine ((Workload.sig_kinded h1 t ht).without (P := fun a => a ∉ f.excluded) fun a ha hx =>
      Filter.excluded_spec hf hx ha).mono fun a k h => ?_
    simp [h.1, h.2]
  | .append ws, S, h => fun t ht => Workload.sigL_kinded h t ht
theorem Workload.sigL_kinded : ∀ {ws : List Workload} {S : Sig}, Workload.sigL ws = some S → ∀ t ∈ Workload.forceTL ws, KindedBy S t
  | [], _, _ => by simp [Workload.forceTL]
  | w :: ws, S, h => by
    simp only [Workload.sigL, Option.bind_eq_some_iff, Option.map_eq_some_iff] at h
    obtain ⟨s, h1, s', h2, rfl⟩ := h
    intro t ht
    rcases List.mem_append.1 ht with ht | ht
    · exact (Workload.sig_kinded h1 t ht).mono fun _ _ h => List.mem_append_left _ h
    · exact (Workload.sigL_kinded h2 t ht).mono fun _ _ h => List.mem_append_right _ h
end

theorem Kinded.noEmpty {H : String → Nat → Prop} {t : Sexp} (h : Kinded H t) : NoEmpty t := by
  induction h with
  | atom => exact NoEmpty.atom _
  | app h1 _ _ ih =>
    rw [NoEmpty.list_iff]
    refine ⟨by simp, fun s hs => ?_⟩
    rcases List.mem_cons.1 hs with rfl | hs
    · exact NoEmpty.atom _
    · exact ih s hs

mutual
theorem Workload.sig_sets : ∀ {w : Workload} {S : Sig}, w.sig = some S → AllSets NoEmpty w
  | .set xs, S, h => .set fun t ht => (Sexp.sigL_kinded h t ht).noEmpty
  | .plug w name pegs, S, h => by
    simp only [Workload.sig, Option.bind_eq_some_iff] at h
    obtain ⟨s, h1, p, h2, -⟩ := h
    exact .plug (Workload.sig_sets h1) (Workload.sig_sets h2)
  | .filter f w, S, h => by
    simp only [Workload.sig, Option.map_eq_some_iff] at h
    obtain ⟨s, h1, -⟩ := h
    exact .filter (Workload.sig_sets h1)
  | .append ws, S, h => .append (Workload.sigL_sets h)
theorem Workload.sigL_sets : ∀ {ws : List Workload} {S : Sig}, Workload.sigL ws = some S → ∀ w ∈ ws, AllSets NoEmpty w
  | [], _, _ => by simp
  | w :: ws, S, h => by
    simp only [Workload.sigL, Option.bind_eq_some_iff, Option.map_eq_some_iff] at h
    obtain ⟨s, h1, s', h2, -⟩ := h
    have h3 := Workload.sig_sets h1
    intro x hx
    rcases List.mem_cons.1 hx with rfl | hx
    · exact h3
    · exact Workload.sigL_sets h2 x hx
end

variable {O : Type} [Lang O]

theorem Tm.ofSexpL_some {l : List Sexp} (h : ∀ s ∈ l, ∃ e : Tm O, Tm.ofSexp s = some e) :
    ∃ es : List (Tm O), Tm.ofSexpL l = some es ∧ es.length = l.length := by
  induction l with
  | nil => exact ⟨[], rfl, rfl⟩
  | cons s l ih =>
    obtain ⟨e, he⟩ := h s (by simp)
    obtain ⟨es, h1, h2⟩ := ih fun s hs => h s (by simp [hs])
    exact ⟨e :: es, by simp [Tm.ofSexpL, he, h1], by simp [h2]⟩

/-- Terms made of operators of the language, with the right numbers of arguments, can be read. -/
theorem Kinded.ofSexp {H : String → Nat → Prop} (hH : ∀ a k, H a k → ∃ o : O, Lang.fromOp a k = some o) {t : Sexp}
    (h : Kinded H t) : ∃ e : Tm O, Tm.ofSexp t = some e := by
  induction h with
  | atom ha =>
    obtain ⟨o, ho⟩ := hH _ _ ha
    exact ⟨_, by rw [Tm.ofSexp, ho]; rfl⟩
  | app _ h2 _ ih =>
    obtain ⟨es, h3, h4⟩ := Tm.ofSexpL_some ih
    obtain ⟨o, ho⟩ := hH _ _ h2
    exact ⟨_, by rw [Tm.ofSexp, h3, Option.bind_some, h4, ho]; rfl⟩

/-- The check that all terms of a workload can be read. -/
def readable (O : Type) [Lang O] (w : Option Workload) : Bool :=
  match w.bind Workload.sig with
  | some S => S.all fun q => (Lang.fromOp q.1 q.2 : Option O).isSome
  | none => false

theorem readable_spec {w : Option Workload} (h : readable O w = true) :
    ∃ w', w = some w' ∧ ∃ ts, w'.force = some ts ∧ ∀ t ∈ ts, ∃ e : Tm O, Tm.ofSexp t = some e := by
  unfold readable at h
  split at h
  · rename_i S hS
    obtain ⟨w', rfl, hS⟩ := Option.bind_eq_some_iff.1 hS
    refine ⟨w', rfl, _, (Workload.AllSets.force (Workload.sig_sets hS)).1, fun t ht => ?_⟩
    refine (Workload.sig_kinded hS t ht).ofSexp fun a k hm => ?_
    exact Option.isSome_iff_exists.1 (List.all_eq_true.1 h (a, k) hm)
  · cases h

end Ruler
