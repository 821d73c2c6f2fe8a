import Verif.Spec.LogRows
import Verif.Spec.BV
import Verif.Props.BV
import Verif.Proofs.Logger
import Verif.Props.Derive
/-!
# Lemmas for the result tables
-/
namespace Ruler
open Spec
variable {O C : Type}

/-! ## Rows that can be logged -/

theorem jsonOk_texts (l : List (List Char)) : JsonOk (.texts l) := by
  refine .arr fun v hv => ?_
  obtain ⟨s, -, rfl⟩ := List.mem_map.1 hv
  exact .str s

theorem nestingL_strs (l : List (List Char)) : nestingL (l.map Json.str) = 0 := by
  induction l with
  | nil => rfl
  | cons s l ih => rw [List.map_cons, nestingL, ih]; rfl

theorem nesting_texts (l : List (List Char)) : nesting (.texts l) = 1 := by
  rw [Json.texts, nesting, nestingL_strs]

theorem jsonOk_object {l : List (String × Json)} (hk : (l.map fun e => e.1.toList).Nodup) (h : ∀ e ∈ l, JsonOk e.2) :
    JsonOk (.object l) := by
  refine .obj (by rw [List.map_map]; exact hk) fun e he => ?_
  obtain ⟨x, hx, rfl⟩ := List.mem_map.1 he
  exact h x hx

theorem nestingM_le {l : List (List Char × Json)} {k : Nat} (h : ∀ e ∈ l, nesting e.2 ≤ k) : nestingM l ≤ k := by
  induction l with
  | nil => exact Nat.zero_le _
  | cons e l ih =>
    obtain ⟨a, v⟩ := e
    rw [nestingM]
    exact max_le (h (a, v) (by simp)) (ih fun e he => h e (by simp [he]))

theorem nesting_object {l : List (String × Json)} {k : Nat} (h : ∀ e ∈ l, nesting e.2 ≤ k) : nesting (.object l) ≤ k + 1 := by
  rw [Json.object, nesting]
  refine Nat.succ_le_succ (nestingM_le fun e he => ?_)
  obtain ⟨x, hx, rfl⟩ := List.mem_map.1 he
  exact h x hx

/-! ## Reading rows -/

theorem field_here (k : String) (v : Json) (l : List (String × Json)) (ks : List String) :
    field (.object ((k, v) :: l)) (k :: ks) = field v ks := by
  rw [Json.object, field, List.map_cons, List.find?_cons_of_pos (by simp)]

theorem field_skip {k k' : String} (h : k.toList ≠ k'.toList) (v : Json) (l : List (String × Json)) (ks : List String) :
    field (.object ((k, v) :: l)) (k' :: ks) = field (.object l) (k' :: ks) := by
  rw [Json.object, field, List.map_cons, List.find?_cons_of_neg (by simpa using h), Json.object, field]

theorem field_nil (v : Json) : field v [] = some v := by rw [field]

/-! ## Derivability -/

theorem filter_perm {α : Type} (f : α → Bool) (l : List α) : (l.filter f ++ l.filter fun x => !f x).Perm l := by
  induction l with
  | nil => rfl
  | cons a l ih =>
    cases h : f a
    · rw [List.filter_cons_of_neg (by simp [h]), List.filter_cons_of_pos (by simp [h])]
      exact List.perm_middle.trans (ih.cons a)
    · rw [List.filter_cons_of_pos h, List.filter_cons_of_neg (by simp [h])]
      exact ih.cons a

/-- The texts of the two sets that `derive` returns. -/
theorem derive_texts [Lang O] [LinearOrder C] {D : Domain O C} {isSat : Rule O → Bool} {ty : DeriveType} {limits : Limits}
    {split : Ruleset.Split} {eg : Rule O → Egg} {tr : Rule O → SchedTrace} {rs against : Ruleset O}
    {r : Ruleset O × Ruleset O} (hw : WellFormed against)
    (h : Ruleset.derive D isSat ty limits split eg tr rs against = some r) :
    (Ruleset.toStrVec r.1 ++ Ruleset.toStrVec r.2).Perm ((Ruleset.iter against).map Rule.name) ∧
    ∀ q ∈ Ruleset.iter against,
      (q.name ∈ Ruleset.toStrVec r.1 → Ruleset.canDerive D (eg q) isSat ty limits (tr q) rs q = some true) ∧
      (q.name ∈ Ruleset.toStrVec r.2 → Ruleset.canDerive D (eg q) isSat ty limits (tr q) rs q = some false) := by
  obtain ⟨yes, no⟩ := r
  have hnames : (Ruleset.iter against).map Rule.name = against.map Prod.fst := by
    rw [Ruleset.iter, List.map_map]
    exact List.map_congr_left fun e he => (hw.1 e he).symm
  have hinj : ∀ e ∈ against, ∀ e' ∈ against, e.1 = e'.1 → e = e' := fun e he e' he' hee =>
    List.inj_on_of_nodup_map hw.2 he he' hee
  rw [hnames]
  have hs : yes = against.filter (fun e => (Ruleset.canDerive D (eg e.2) isSat ty limits (tr e.2) rs e.2).getD false) ∧
      no = against.filter (fun e => !(Ruleset.canDerive D (eg e.2) isSat ty limits (tr e.2) rs e.2).getD false) := by
    unfold Ruleset.derive at h
    split at h
    · rw [Option.some.injEq, C17_partition _ _ _ hw, Prod.mk.injEq] at h
      exact ⟨h.1.symm, h.2.symm⟩
    · cases h
  refine ⟨?_, fun q hq => ?_⟩
  · simp only [Ruleset.toStrVec, hs.1, hs.2]
    rw [← List.map_append]
    exact (filter_perm _ _).map _
  · obtain ⟨h1, -, -⟩ := C33_partition hw h
    have key : ∀ s : Ruleset O, (∀ e ∈ s, e ∈ against) → q.name ∈ Ruleset.toStrVec s → q ∈ Ruleset.iter s := by
      intro s hsub hqs
      obtain ⟨e, he, heq⟩ := List.mem_map.1 hqs
      obtain ⟨e', he', rfl⟩ := List.mem_map.1 hq
      have := hinj e (hsub e he) e' he' (by rw [heq, hw.1 e' he'])
      subst this
      exact List.mem_map_of_mem he
    refine ⟨fun hy => ?_, fun hn => ?_⟩
    · rcases h1 q hq with h1 | h1
      · exact h1.2.2
      · exact absurd (key yes (fun e he => List.mem_of_mem_filter (hs.1 ▸ he)) hy) h1.1
    · rcases h1 q hq with h1 | h1
      · exact absurd (key no (fun e he => List.mem_of_mem_filter (hs.2 ▸ he)) hn) h1.2.1
      · exact h1.2.2

/-! ## Lines -/

theorem linesAux_length (s acc : List Char) : (linesAux s acc).length =
    s.count '\n' + if s.getLast?.getD (if acc = [] then '\n' else 'x') = '\n' then 0 else 1 := by
  induction s generalizing acc with
  | nil =>
    cases acc <;> simp [linesAux]
  | cons c s ih =>
    rw [linesAux]
    split
    · rename_i hc
      subst hc
      rw [List.length_cons, ih, List.count_cons_self]
      cases s with
      | nil => simp
      | cons d s => rw [List.getLast?_cons_cons]; simp only [List.getLast?_cons, Option.getD_some]; omega
    · rename_i hc
      rw [ih, List.count_cons_of_ne hc]
      cases s with
      | nil => simp [hc]
      | cons d s => rw [List.getLast?_cons_cons]; simp only [List.getLast?_cons, Option.getD_some]

theorem textLines_length (s : List Char) : (textLines s).length = lineCount s := by
  rw [textLines, linesAux_length, lineCount]; rfl

/-! ## Other widths -/

theorem patMapL_eq {O' : Type} (f : O → O') (l : List (Pat O)) : patMapL f l = l.map (patMap f) := by
  induction l with
  | nil => rfl
  | cons p l ih => rw [patMapL, ih]; rfl

theorem display_widen {M N : Nat} (o : BvOp M) : Lang.display (widen o : BvOp N) = Lang.display o := by cases o <;> rfl

mutual
theorem vars_patMap {O' : Type} (f : O → O') : ∀ p : Pat O, (patMap f p).vars = p.vars
  | .var v => rfl
  | .node o args => by rw [patMap, Pat.vars, Pat.vars, varsL_patMapL f args]
theorem varsL_patMapL {O' : Type} (f : O → O') : ∀ l : List (Pat O), Pat.varsL (patMapL f l) = Pat.varsL l
  | [] => rfl
  | p :: l => by rw [patMapL, Pat.varsL, Pat.varsL, vars_patMap f p, varsL_patMapL f l]
end

mutual
theorem toSexp_widen {M N : Nat} : ∀ p : Pat (BvOp M), (patMap (widen (N := N)) p).toSexp = p.toSexp
  | .var v => rfl
  | .node o [] => by rw [patMap, patMapL, Pat.toSexp, Pat.toSexp, display_widen]
  | .node o (a :: args) => by
    rw [patMap, patMapL, Pat.toSexp, Pat.toSexp, display_widen, toSexp_widen a, toSexpL_widen args]
theorem toSexpL_widen {M N : Nat} : ∀ l : List (Pat (BvOp M)), Pat.toSexpL (patMapL (widen (N := N)) l) = Pat.toSexpL l
  | [] => rfl
  | p :: l => by rw [patMapL, Pat.toSexpL, Pat.toSexpL, toSexp_widen p, toSexpL_widen l]
end

theorem print_widen {M N : Nat} (p : Pat (BvOp M)) : (patMap (widen (N := N)) p).print = p.print := by
  rw [Pat.print, Pat.print, toSexp_widen]

end Ruler
