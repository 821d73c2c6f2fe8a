import Verif.Model.Report
import Verif.Props.Built
import Verif.Props.LogRows
import Verif.Spec.SampleEGraph
import Verif.Props.Saturation
/-!
# C83: the report of `print_derive`
-/
namespace Ruler
open Spec EGraph
variable {O C V : Type} [Lang O] [LinearOrder C] {D : Domain O C}

/-- **C83.** What is printed: the sizes of the two files' rulesets, the number of rules of the second that can be derived from the first, the number
of those that cannot, and lines which, read again, give exactly the rules of the second file that cannot be derived. The numbers add up. -/
theorem C83_report {E : DeriveEnv O} {ty : DeriveType} {files : List Char → Option (List Char)} {one two out : List Char}
    (ht : ∀ (s : List Char) (r2 : Ruleset O), files two = some s → Ruleset.fromFile s = some r2 → ∀ r ∈ Ruleset.iter r2, Rule.Textual r)
    (h : printDerive D E ty files one two = some out) :
    ∃ (s1 s2 : List Char) (r1 r2 : Ruleset O) (can cannot : Nat) (lines : List (List Char)) (missing : Ruleset O),
      files one = some s1 ∧ Ruleset.fromFile s1 = some r1 ∧ files two = some s2 ∧ Ruleset.fromFile s2 = some r2 ∧
      out = unlines (("Using ".toList ++ one ++ " (".toList ++ BV.decimal (Ruleset.iter r1).length ++ ") to derive ".toList ++ two ++
          " (".toList ++ BV.decimal (Ruleset.iter r2).length ++ ").".toList) ::
        ("Can derive ".toList ++ BV.decimal can ++ ", cannot derive ".toList ++ BV.decimal cannot ++ ". Missing:".toList) :: lines) ∧
      can = ((Ruleset.iter r2).filter fun r => Ruleset.canDerive D (E.eg r) E.isSat ty .forDeriving (E.tr r) r1 r = some true).length ∧
      cannot = ((Ruleset.iter r2).filter fun r => Ruleset.canDerive D (E.eg r) E.isSat ty .forDeriving (E.tr r) r1 r = some false).length ∧
      can + cannot = (Ruleset.iter r2).length ∧ lines.Nodup ∧ Ruleset.new lines = some missing ∧
      ∀ r, r ∈ Ruleset.iter missing ↔
        r ∈ Ruleset.iter r2 ∧ Ruleset.canDerive D (E.eg r) E.isSat ty .forDeriving (E.tr r) r1 r = some false := by
  unfold printDerive at h
  obtain ⟨s1, hs1, h⟩ := Option.bind_eq_some_iff.1 h
  obtain ⟨r1, hr1, h⟩ := Option.bind_eq_some_iff.1 h
  obtain ⟨s2, hs2, h⟩ := Option.bind_eq_some_iff.1 h
  obtain ⟨r2, hr2, h⟩ := Option.bind_eq_some_iff.1 h
  obtain ⟨p, hp, rfl⟩ := Option.map_eq_some_iff.1 h
  have hw : WellFormed r2 := by
    have hb : Built D r2 := .fromFile hr2
    refine ⟨fun e he => ?_, (C28_named hb).2⟩
    rw [(C28_named hb).1 e he, (ht _ _ hs2 hr2 e.2 (List.mem_map_of_mem he)).1.1]
  unfold Ruleset.derive at hp
  split at hp
  rotate_left
  · cases hp
  rename_i hall
  rw [List.all_eq_true] at hall
  rw [Option.some.injEq, C17_partition _ _ _ hw] at hp
  subst hp
  have hyes : ∀ r ∈ Ruleset.iter r2, ((Ruleset.canDerive D (E.eg r) E.isSat ty .forDeriving (E.tr r) r1 r).getD false = true ↔
      Ruleset.canDerive D (E.eg r) E.isSat ty .forDeriving (E.tr r) r1 r = some true) := fun r hr => by
    obtain ⟨b, hb⟩ := Option.isSome_iff_exists.1 (hall r hr)
    rw [hb]; simp
  have hno : ∀ r ∈ Ruleset.iter r2, ((!(Ruleset.canDerive D (E.eg r) E.isSat ty .forDeriving (E.tr r) r1 r).getD false) = true ↔
      Ruleset.canDerive D (E.eg r) E.isSat ty .forDeriving (E.tr r) r1 r = some false) := fun r hr => by
    obtain ⟨b, hb⟩ := Option.isSome_iff_exists.1 (hall r hr)
    rw [hb]; simp
  have hcount : ∀ f : Rule O → Bool, (r2.filter fun e => f e.2).length = ((Ruleset.iter r2).filter f).length := fun f => by
    rw [Ruleset.iter, List.filter_map, List.length_map]; rfl
  have hmem : ∀ (f : Rule O → Bool) (r : Rule O), r ∈ Ruleset.iter (r2.filter fun e => f e.2) ↔ r ∈ Ruleset.iter r2 ∧ f r = true := fun f r => by
    rw [Ruleset.iter, Ruleset.iter]
    constructor
    · intro h
      obtain ⟨e, he, rfl⟩ := List.mem_map.1 h
      exact ⟨List.mem_map_of_mem (List.mem_filter.1 he).1, (List.mem_filter.1 he).2⟩
    · rintro ⟨h, hf⟩
      obtain ⟨e, he, rfl⟩ := List.mem_map.1 h
      exact List.mem_map_of_mem (List.mem_filter.2 ⟨he, hf⟩)
  have hwn := wf_of_sublist (List.filter_sublist (p := fun e : List Char × Rule O =>
    !(Ruleset.canDerive D (E.eg e.2) E.isSat ty .forDeriving (E.tr e.2) r1 e.2).getD false)) hw
  have htn : ∀ r ∈ Ruleset.iter (r2.filter fun e => !(Ruleset.canDerive D (E.eg e.2) E.isSat ty .forDeriving (E.tr e.2) r1 e.2).getD false),
      Rule.Textual r := fun r hr => ht _ _ hs2 hr2 r
    ((hmem (fun r => !(Ruleset.canDerive D (E.eg r) E.isSat ty .forDeriving (E.tr r) r1 r).getD false) r).1 hr).1
  obtain ⟨missing, hm1, hm2⟩ := C19_load_printed _ hwn htn
  refine ⟨s1, s2, r1, r2, _, _, _, missing, hs1, hr1, hs2, hr2, by simp only [Ruleset.iter, List.length_map]; rfl, ?_, ?_, ?_,
    (C20_exactly_one_line _ hwn htn).1, hm1, fun r => ?_⟩
  · rw [hcount fun r => (Ruleset.canDerive D (E.eg r) E.isSat ty .forDeriving (E.tr r) r1 r).getD false]
    exact congrArg List.length (List.filter_congr fun r hr => by simpa using (Bool.eq_iff_iff.2 (by simpa using hyes r hr)))
  · rw [hcount fun r => !(Ruleset.canDerive D (E.eg r) E.isSat ty .forDeriving (E.tr r) r1 r).getD false]
    exact congrArg List.length (List.filter_congr fun r hr => by
      have := hno r hr
      rw [Bool.eq_iff_iff]
      simpa using this)
  · rw [hcount fun r => (Ruleset.canDerive D (E.eg r) E.isSat ty .forDeriving (E.tr r) r1 r).getD false,
      hcount fun r => !(Ruleset.canDerive D (E.eg r) E.isSat ty .forDeriving (E.tr r) r1 r).getD false]
    exact (List.length_eq_length_filter_add _).symm
  · rw [hm2, hmem fun r => !(Ruleset.canDerive D (E.eg r) E.isSat ty .forDeriving (E.tr r) r1 r).getD false]
    exact and_congr_right fun hr => hno r hr

/-- **C83.** A rule of the second file that is not among the rules printed as missing holds wherever the rules of the first file hold. -/
theorem C83_sound {ar : O → Nat → Prop} {I : O → List V → V} {mem : Interval C → V → Prop} (hF : ∀ env, FoldsIn D ar (withVars env I) mem)
    (hv : VarsOk (O := O) ar) {E : DeriveEnv O} {ty : DeriveType} {files : List Char → Option (List Char)} {one two out s1 s2 : List Char}
    {r1 r2 : Ruleset O} (h1 : files one = some s1) (h1' : Ruleset.fromFile s1 = some r1) (h2 : files two = some s2)
    (h2' : Ruleset.fromFile s2 = some r2) (hR : ∀ q ∈ Ruleset.iter r1, GoodRule ar q ∧ Holds I q)
    (hg : ∀ q ∈ Ruleset.iter r2, GoodRule ar q) (ht : ∀ r ∈ Ruleset.iter r2, Rule.Textual r)
    (h : printDerive D E ty files one two = some out) :
    ∃ (head : List Char) (lines : List (List Char)) (missing : Ruleset O), out = head ++ unlines lines ∧ Ruleset.new lines = some missing ∧
      ∀ r ∈ Ruleset.iter r2, r ∉ Ruleset.iter missing → Holds I r := by
  have ht' : ∀ (s : List Char) (q : Ruleset O), files two = some s → Ruleset.fromFile s = some q → ∀ r ∈ Ruleset.iter q, Rule.Textual r := by
    intro s q hs hq
    rw [h2, Option.some.injEq] at hs
    subst hs
    rw [h2', Option.some.injEq] at hq
    subst hq
    exact ht
  obtain ⟨s1', s2', r1', r2', can, cannot, lines, missing, e1, e1', e2, e2', ho, hc, hn, hs, -, hl, hm⟩ := C83_report ht' h
  rw [h1, Option.some.injEq] at e1
  subst e1
  rw [h1', Option.some.injEq] at e1'
  subst e1'
  rw [h2, Option.some.injEq] at e2
  subst e2
  rw [h2', Option.some.injEq] at e2'
  subst e2'
  refine ⟨_, lines, missing, by rw [ho, unlines, List.flatMap_cons, List.flatMap_cons, ← List.append_assoc]; rfl, hl, fun r hr hnot => ?_⟩
  refine C32_sound hF hv hR (hg r hr) (E := E.eg r) (isSat := E.isSat) (ty := ty) (limits := .forDeriving) (t := E.tr r) ?_
  unfold printDerive at h
  rw [h1, Option.bind_some, h1', Option.bind_some, h2, Option.bind_some, h2', Option.bind_some] at h
  obtain ⟨p, hp, -⟩ := Option.map_eq_some_iff.1 h
  unfold Ruleset.derive at hp
  split at hp
  rotate_left
  · cases hp
  rename_i hall
  obtain ⟨b, hb⟩ := Option.isSome_iff_exists.1 (List.all_eq_true.1 hall r hr)
  cases b with
  | true => exact hb
  | false => exact absurd ((hm r).2 ⟨hr, hb⟩) hnot

namespace Sample
/-- Runs that apply the first two matches of commutativity. -/
def reportEnv : DeriveEnv NatOp := ⟨fun _ => false, .fork 1 .leaf .leaf, fun _ => egg, fun _ => trace, []⟩
/-- A file with commutativity, and one with three rules. -/
def reportFiles (name : List Char) : Option (List Char) :=
  if name = "one".toList then some "(+ ?a ?b) ==> (+ ?b ?a)\n".toList
  else if name = "two".toList then some (Ruleset.toFile pick) else none
theorem pick_wf : WellFormed pick := Ruleset.WellFormed.addAll Ruleset.WellFormed.nil _
theorem reportFiles_two (s : List Char) (r2 : Ruleset NatOp) (h : reportFiles "two".toList = some s) (h' : Ruleset.fromFile s = some r2) :
    r2 = pick := by
  have e : reportFiles "two".toList = some (Ruleset.toFile pick) := rfl
  rw [e, Option.some.injEq] at h
  rw [← h, C19_file_roundtrip _ pick_wf fun r hr => (pick_ok r hr).1, Option.some.injEq] at h'
  exact h'.symm
end Sample

-- Two of three rules can be derived from commutativity; the other one is printed.
example : printDerive Sample.natDom Sample.reportEnv .lhsAndRhs Sample.reportFiles "one".toList "two".toList =
    some "Using one (1) to derive two (3).\nCan derive 2, cannot derive 1. Missing:\n(+ ?a ?b) ==> ?a\n".toList := by decide +kernel

example : ∃ (lines : List (List Char)) (missing : Ruleset NatOp), Ruleset.new lines = some missing ∧
    ∀ r ∈ Ruleset.iter Sample.pick, r ∉ Ruleset.iter missing → Holds natOpVal r := by
  obtain ⟨out, h⟩ := Option.isSome_iff_exists.1 (show (printDerive Sample.natDom Sample.reportEnv .lhsAndRhs Sample.reportFiles "one".toList
    "two".toList).isSome = true by decide +kernel)
  have hp : ∀ r ∈ Ruleset.iter Sample.pick, GoodRule (fun o k => k = NatOp.arity o) r := by
    intro r hr
    have h2 := (Sample.pick_ok r hr).2.2
    have : r ∈ [Sample.fstRule, Sample.commRule2, Sample.commRule] := hr
    have plus : ∀ x y : String, PatOk (fun o k => k = NatOp.arity o) (.node NatOp.add [.var x, .var y]) := fun x y =>
      .node rfl fun a ha => by
        simp only [List.mem_cons, List.not_mem_nil, or_false] at ha
        rcases ha with rfl | rfl <;> exact .var
    simp only [List.mem_cons, List.not_mem_nil, or_false] at this
    rcases this with rfl | rfl | rfl
    · exact ⟨⟨plus _ _, .var⟩, h2⟩
    · exact ⟨⟨plus _ _, plus _ _⟩, h2⟩
    · exact ⟨⟨plus _ _, plus _ _⟩, h2⟩
  obtain ⟨-, lines, missing, -, h1, h2⟩ := C83_sound (s1 := Ruleset.toFile [(Sample.commRule.name, Sample.commRule)]) (nat_folds _)
    Sample.natVarsOk (by decide +kernel)
    (C19_file_roundtrip [(Sample.commRule.name, Sample.commRule)] (by simp [WellFormed]) fun r hr => by
      rw [List.mem_singleton.1 hr]; exact (Sample.pick_ok _ (show _ ∈ [Sample.fstRule, Sample.commRule2, Sample.commRule] by simp)).1)
    (show Sample.reportFiles "two".toList = some (Ruleset.toFile Sample.pick) from rfl)
    (C19_file_roundtrip _ Sample.pick_wf fun r hr => (Sample.pick_ok r hr).1)
    (fun q hq => by
      rw [List.mem_singleton.1 hq]
      exact ⟨hp _ (show _ ∈ [Sample.fstRule, Sample.commRule2, Sample.commRule] by simp), Sample.addComm_holds⟩)
    hp (fun r hr => (Sample.pick_ok r hr).1) h
  exact ⟨lines, missing, h1, h2⟩

end Ruler
