import Verif.Props.LogRows
import Verif.Props.RecipeRules
/-!
# C77: rules for four bits are ported to other widths, and the comparison with generated rules is right

`compare` and `gen` of tests/bv8.rs, bv16.rs, bv32.rs, bv64.rs.
-/
namespace Ruler
open Spec

theorem widen_arity {M N : Nat} (o : BvOp M) : (widen o : BvOp N).arity = o.arity := by cases o <;> rfl

theorem widen_toVar {M N : Nat} (o : BvOp M) : Lang.toVar (widen o : BvOp N) = Lang.toVar o := by cases o <;> rfl

theorem widen_proper {M N : Nat} (h : M ≤ N) {o : BvOp M} (ho : LitProper o) : LitProper (widen o : BvOp N) := by
  cases o with
  | lit n =>
    have h1 : n.val.toNat < 2 ^ M := ho
    exact Nat.lt_of_lt_of_le h1 (Nat.pow_le_pow_right (by decide) h)
  | _ => trivial

section
variable {M N : Nat} (h : M ≤ N)
include h

theorem patOk_widen {p : Pat (BvOp M)} (hp : PatOk (fun o k => k = o.arity ∧ LitProper o) p) :
    PatOk (fun o k => k = o.arity ∧ LitProper o) (patMap (widen (N := N)) p) := by
  induction hp with
  | var => exact .var
  | node ha _ ih =>
    rw [patMap, patMapL_eq]
    refine .node ?_ fun a ha' => ?_
    · rw [List.length_map, widen_arity]; exact ⟨ha.1, widen_proper h ha.2⟩
    · obtain ⟨b, hb, rfl⟩ := List.mem_map.1 ha'; exact ih b hb

omit h in
theorem schematic_widen {p : Pat (BvOp M)} (hp : Schematic p) : Schematic (patMap (widen (N := N)) p) := by
  induction hp with
  | var hv => exact .var hv
  | node hv _ ih =>
    rw [patMap, patMapL_eq]
    refine .node (by rw [widen_toVar]; exact hv) fun a ha' => ?_
    obtain ⟨b, hb, rfl⟩ := List.mem_map.1 ha'
    exact ih b hb

theorem readable_widen (hN : N ≤ 128) {p : Pat (BvOp M)} (hp : Readable p) (ho : PatOk (fun o k => k = o.arity ∧ LitProper o) p)
    (hs : Schematic p) : Readable (patMap (widen (N := N)) p) := by
  induction hp with
  | var h1 h2 => exact .var h1 h2
  | node h1 h2 h3 _ ih =>
    cases ho with | node ho1 ho2 => ?_
    cases hs with | node hs1 hs2 => ?_
    rw [patMap, patMapL_eq]
    have h4 := bv_opsReadable hN _ _ ⟨widen_arity (N := N) _ ▸ ho1.1, widen_proper h ho1.2⟩ (by rw [widen_toVar]; exact hs1)
    refine .node h4.1 h4.2.1 (by rw [List.length_map]; exact h4.2.2.1) fun a ha' => ?_
    obtain ⟨b, hb, rfl⟩ := List.mem_map.1 ha'
    exact ih b hb (ho2 b hb) (hs2 b hb)

theorem goodRule_widen {r : Rule (BvOp M)} (hr : GoodRule (fun o k => k = o.arity ∧ LitProper o) r) :
    GoodRule (fun o k => k = o.arity ∧ LitProper o) (widenRule (N := N) r) :=
  ⟨⟨patOk_widen h hr.1.1, patOk_widen h hr.1.2⟩, schematic_widen hr.2.1, schematic_widen hr.2.2⟩

theorem textual_widen (hN : N ≤ 128) {r : Rule (BvOp M)} (ht : Rule.Textual r)
    (hr : GoodRule (fun o k => k = o.arity ∧ LitProper o) r) : Rule.Textual (widenRule (N := N) r) := by
  obtain ⟨⟨h1, h2⟩, h3, h4, h5, h6⟩ := ht
  refine ⟨⟨?_, fun v hv => ?_⟩, readable_widen h hN h3 hr.1.1 hr.2.1, readable_widen h hN h4 hr.1.2 hr.2.2, ?_, ?_⟩
  · simp only [widenRule, ruleName, print_widen]; exact h1
  · simp only [widenRule, vars_patMap] at hv ⊢; exact h2 v hv
  · simp only [widenRule, print_widen]; exact h5
  · simp only [widenRule, print_widen]; exact h6
end

/-- **C77.** Porting rules to a larger width does not panic and loses nothing: it gives the same rules in the same order, with the same numbers as
literals. -/
theorem C77_port {M N : Nat} (h : M ≤ N) (hN : N ≤ 128) {P : Rule (BvOp M) → Prop} {rs : Ruleset (BvOp M)}
    (hr : AllRules (fun o k => k = o.arity ∧ LitProper o) P rs) :
    ∃ out : Ruleset (BvOp N), portRules rs = some out ∧ Ruleset.iter out = (Ruleset.iter rs).map widenRule ∧
      AllRules (fun o k => k = o.arity ∧ LitProper o) (fun q => ∃ r ∈ Ruleset.iter rs, q = widenRule r) out := by
  have hit : Ruleset.iter (rs.map fun e => (e.1, widenRule (N := N) e.2)) = (Ruleset.iter rs).map widenRule := by
    simp only [Ruleset.iter, List.map_map]; rfl
  have hw : WellFormed (rs.map fun e => (e.1, widenRule (N := N) e.2)) := by
    refine ⟨fun e he => ?_, ?_⟩
    · obtain ⟨x, hx, rfl⟩ := List.mem_map.1 he
      exact hr.named.1 x hx
    · rw [List.map_map]; exact hr.named.2
  have ht : ∀ q ∈ Ruleset.iter (rs.map fun e => (e.1, widenRule (N := N) e.2)), Rule.Textual q := by
    intro q hq
    rw [hit] at hq
    obtain ⟨x, hx, rfl⟩ := List.mem_map.1 hq
    exact textual_widen h hN (hr.textual x hx) (hr.sorted x hx)
  have hnames : Ruleset.toStrVec (rs.map fun e => (e.1, widenRule (N := N) e.2)) = Ruleset.toStrVec rs := by
    rw [Ruleset.toStrVec, List.map_map]; rfl
  refine ⟨_, ?_, hit, ⟨hw, ht, fun q hq => ?_, fun q hq => ?_⟩⟩
  · rw [portRules, ← hnames, C19_texts_roundtrip _ hw ht]
  · rw [hit] at hq
    obtain ⟨x, hx, rfl⟩ := List.mem_map.1 hq
    exact goodRule_widen h (hr.sorted x hx)
  · rw [hit] at hq
    obtain ⟨x, hx, rfl⟩ := List.mem_map.1 hq
    exact ⟨x, hx, rfl⟩

theorem cleanPat_var {O : Type} [Lang O] {ar : O → Nat → Prop} {v : String} (h1 : Plain v) (h2 : VarName v)
    (h3 : ¬ HasArrow v.toList) : CleanPat ar (.var v) := by
  obtain ⟨c, r, h⟩ := h2
  refine ⟨.var h1 ⟨c, r, h⟩, .var, .var (by rw [h]; rfl), fun a ha => ?_⟩
  rw [Pat.toSexp, subterm_atom_iff] at ha
  cases ha
  exact h3

namespace Sample
/-- `(>> ?a 4) ==> 0` for four bits. -/
def shiftAll : Rule (BvOp 4) :=
  ⟨"(>> ?a 4) ==> 0".toList, .node .shr [.var "?a", .node (.lit ⟨4⟩) []], .node (.lit ⟨0⟩) []⟩

theorem shiftAll_clean : CleanPat (fun o k => k = o.arity ∧ LitProper o) shiftAll.lhs ∧
    CleanPat (fun o k => k = o.arity ∧ LitProper o) shiftAll.rhs := by
  have h0 : CleanPat (fun o k => k = o.arity ∧ LitProper o) (.node (.lit ⟨0⟩) [] : Pat (BvOp 4)) :=
    CleanPat.node (bv_opsReadable (by decide)) ⟨rfl, by show (0 : BitVec 128).toNat < 2 ^ 4; decide⟩ rfl (by simp)
  have h4 : CleanPat (fun o k => k = o.arity ∧ LitProper o) (.node (.lit ⟨4⟩) [] : Pat (BvOp 4)) :=
    CleanPat.node (bv_opsReadable (by decide)) ⟨rfl, by show (4 : BitVec 128).toNat < 2 ^ 4; decide⟩ rfl (by simp)
  have hv : CleanPat (fun o k => k = o.arity ∧ LitProper o) (.var "?a" : Pat (BvOp 4)) :=
    cleanPat_var (by decide +kernel) ⟨'a', [], by decide⟩ (by unfold HasArrow; decide)
  refine ⟨CleanPat.node (bv_opsReadable (by decide)) ⟨rfl, trivial⟩ rfl ?_, h0⟩
  intro a ha
  rcases List.mem_cons.1 ha with rfl | ha
  · exact hv
  · rw [List.mem_singleton.1 ha]; exact h4

theorem shiftAll_holds : Holds bvOpVal shiftAll := by
  have key : ∀ x : BitVec 4, x >>> (BitVec.setWidth 4 (4 : BitVec 128)) = BitVec.setWidth 4 (0 : BitVec 128) := by decide
  exact fun ρ => key (ρ "?a")

theorem shiftAll_ok : Rule.Textual shiftAll ∧ GoodRule (fun o k => k = o.arity ∧ LitProper o) shiftAll :=
  CleanPat.rule ⟨by decide +kernel, by decide⟩ shiftAll_clean.1 shiftAll_clean.2
end Sample

/-- **C77.** The validation of ported rules is needed: a rule may hold for four bits and not, with the same literals, for any larger
width. -/
theorem C77_validation_needed (N : Nat) (hN : 4 < N) : ∃ r : Rule (BvOp 4),
    Rule.Textual r ∧ GoodRule (fun o k => k = o.arity ∧ LitProper o) r ∧ Holds bvOpVal r ∧
      ¬ Holds bvOpVal (widenRule (N := N) r) := by
  refine ⟨Sample.shiftAll, Sample.shiftAll_ok.1, Sample.shiftAll_ok.2, Sample.shiftAll_holds, fun h => ?_⟩
  have h0 : (BitVec.ofNat N 16) >>> (BitVec.ofNat N 4) = BitVec.ofNat N 0 := h fun _ => BitVec.ofNat N 16
  have hp : (2 : Nat) ^ 5 ≤ 2 ^ N := Nat.pow_le_pow_right (by decide) hN
  have h1 := congrArg BitVec.toNat h0
  rw [BitVec.ushiftRight_eq', BitVec.toNat_ushiftRight, BitVec.toNat_ofNat, BitVec.toNat_ofNat, BitVec.toNat_ofNat,
    Nat.mod_eq_of_lt (by omega : 16 < 2 ^ N), Nat.mod_eq_of_lt (by omega : 4 < 2 ^ N), Nat.zero_mod] at h1
  exact absurd h1 (by decide)

theorem bv_fromOp_xor {N : Nat} {s : String} {k : Nat} (h : (Lang.fromOp s k : Option (BvOp N)) = some .xor) : s = "^" := by
  simp only [Lang.fromOp] at h
  repeat' split at h
  all_goals first | cases h; done | simp_all

/-- A language without `^`. -/
theorem langUses_noXor {N : Nat} {L : RecipeLang} (h1 : ∀ t ∈ L.vals ++ L.vars, t ≠ ['^']) (h2 : ∀ l ∈ L.ops, ∀ t ∈ l, t ≠ ['^']) :
    LangUses (· ≠ BvOp.xor (N := N)) L := by
  refine ⟨fun t ht o ho => Or.inl ?_, fun i os hi t ht o ho => Or.inl ?_⟩
  · rintro rfl
    exact h1 t (List.mem_append.2 ht) (by simpa using congrArg String.toList (bv_fromOp_xor ho))
  · rintro rfl
    exact h2 os (List.mem_of_getElem? hi) t ht (by simpa using congrArg String.toList (bv_fromOp_xor ho))

/-- **C77.** All rules that the direct search finds hold for all words of the width, if z3 is right when it says unsatisfiable. -/
theorem C77_gen {N m n : Nat} (hN : N ≤ 64) (hn : 1 ≤ n) {E : Nat → Nat → RunEnv (BvOp N) (BV N)}
    (hE : ∀ i k, RunOk (bvDomain N) (E i k)) (ha : ∀ i k, AnswersFrom (SolverSoundBV N) bvValidate (E i k).min.valid)
    {out : Ruleset (BvOp N)} (h : bvGenSized m n E = some out) :
    AllRules (fun o k => k = o.arity ∧ LitProper o) (fun q => Holds bvOpVal q ∧ RuleUses (· ≠ .xor) q) out := by
  simp only [bvGenSized, Option.bind_eq_bind, Option.bind_eq_some_iff, Option.pure_def, Option.some.injEq] at h
  obtain ⟨r5, h5, w, hw, r7, h7, rfl⟩ := h
  have h2 := AllRules.extend AllRules.nil (bv_recursive hN (hE 0) (ha 0) (langCheck_ok (by decide +kernel))
    (langUses_noXor (by decide +kernel) (by decide +kernel)) h5)
  refine AllRules.extend h2 (AllRules.run (bv_typed hN) (hE 1 0) ?_ h2 h7 fun q _ k1 _ ⟨_, k2⟩ =>
    bv_accepted hN (ha 1 0) k1 k2)
  refine Spec.Lists.uses (C66_bv4_canon n hn) (fun s hs t ht => ?_) hw
  rcases hs with ⟨a, ha, rfl⟩ | hs
  · exact langUses_term (L := .new ["0", "1"] [] []) (langUses_noXor (by decide +kernel) (by decide +kernel)) (by
      have e : Sexp.atom a = word a.toList := by rw [word, String.ofList_toList]
      rw [e]
      exact .val (List.mem_map_of_mem ha)) ht
  · exact langUses_term (langUses_noXor (by decide +kernel) (by decide +kernel)) hs.1 ht

/-- **C77.** The comparison for a width from 4 to 64 bits, if z3 is right when it says unsatisfiable: the row added to the log lists as
ported rules exactly those rules of the search for four bits that the validation accepts for this width, and they hold for all words of
this width; as generated rules those of the direct search, which hold too; and it splits these into those that the listed ported
rules derive and the others. -/
theorem C77_compare {N m n m' n' : Nat} (h4 : 4 ≤ N) (hN : N ≤ 64) (hn : 1 ≤ n) (hn' : 1 ≤ n')
    {E4 : Nat → Nat → RunEnv (BvOp 4) (BV 4)} (hE4 : ∀ i k, RunOk (bvDomain 4) (E4 i k))
    (ha4 : ∀ i k, AnswersFrom (SolverSoundBV 4) bvValidate (E4 i k).min.valid)
    {EN : Nat → Nat → RunEnv (BvOp N) (BV N)} (hEN : ∀ i k, RunOk (bvDomain N) (EN i k))
    (haN : ∀ i k, AnswersFrom (SolverSoundBV N) bvValidate (EN i k).min.valid)
    {E : DeriveType → DeriveEnv (BvOp N)} (hE : ∀ ty, Numeral (E ty).time)
    {valid : Rule (BvOp N) → Bool} (hv : AnswersFrom (SolverSoundBV N) bvValidate fun _ => valid)
    {split : Ruleset.Split} {vtime domain genTime : List Char} (hvt : Numeral vtime)
    (hgt : Numeral genTime) {f f' : LogFile} {rows : List Json} (hf : Logged f rows) (hr : ∀ r ∈ rows, RowOk r)
    (h : bvCompare m n m' n' E4 EN E valid split vtime domain genTime f = some f') :
    ∃ row actual gen sound, Logged f' (rows ++ [row]) ∧
      bv4FancySized m n E4 = some actual ∧ bvGenSized m' n' EN = some gen ∧
      HasText row ["domain"] domain ∧
      HasTexts row ["from_bv4", "rules"] ((Ruleset.iter sound).map Rule.name) ∧
      HasTexts row ["direct_gen", "rules"] ((Ruleset.iter gen).map Rule.name) ∧
      Ruleset.iter sound = ((Ruleset.iter actual).map widenRule).filter valid ∧
      (∀ r ∈ Ruleset.iter sound, Holds bvOpVal r) ∧ (∀ r ∈ Ruleset.iter gen, Holds bvOpVal r) ∧
      Reports row ["derivability", "lhs"] gen ((E .lhs).found (bvDomain N) .lhs sound) ∧
      Reports row ["derivability", "lhs_rhs"] gen ((E .lhsAndRhs).found (bvDomain N) .lhsAndRhs sound) := by
  simp only [bvCompare, Option.bind_eq_some_iff] at h
  obtain ⟨actual, h1, ported, h2, gen, h3, h⟩ := h
  have hact := C67_bv4_fancy hn hE4 ha4 h1
  obtain ⟨out, ho, hit, hall⟩ := C77_port h4 (by omega) hact
  rw [h2, Option.some.injEq] at ho
  subst ho
  have hgen := C77_gen hN hn' hEN haN h3
  obtain ⟨row, sound, k1, -, k2, k3, -, k4, k5, -, k6, -, k7, k8⟩ := C76_bv hf hr hgen.named hall.named hvt hgt hE h
  refine ⟨row, actual, gen, sound, k1, h1, h3, k4, k6, k5, by rw [k3, hit], fun r hr => ?_, fun r hr => (hgen.hold r hr).1, k7, k8⟩
  rw [k3, List.mem_filter] at hr
  exact bv_accepted hN hv (hall.sorted r hr.1) (asked := [r]) ⟨[], by simp, hr.2⟩

end Ruler
