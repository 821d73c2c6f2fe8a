import Verif.Props.RecipeTerms
import Verif.Proofs.RecipeWorkloads
/-!
# Property C66, continued: the workloads of the recipes in tests/recipes
-/
namespace Ruler
open Spec

example : LangOk boolLang ∧ boolLang.vals.Nodup ∧ boolLang.vars.Nodup ∧ ∀ os ∈ boolLang.ops, os.Nodup :=
  ⟨langCheck_ok (by decide +kernel), by decide +kernel, by decide +kernel, by decide +kernel⟩
example : LangOk bv32Lang ∧ LangOk bv4Lang ∧ LangOk halideBoolLang ∧ LangOk halideRatLang ∧ LangOk halidePredLang ∧
    LangOk halideFullLang :=
  ⟨langCheck_ok (by decide +kernel), langCheck_ok (by decide +kernel), langCheck_ok (by decide +kernel),
    langCheck_ok (by decide +kernel), langCheck_ok (by decide +kernel), langCheck_ok (by decide +kernel)⟩

/-- Test: the second level of the Boolean recipe, computed. -/
example : (recursiveWorkload .atoms 2 boolLang).bind Workload.force = some [.atom "a", .atom "b", .atom "c",
    .list [.atom "~", .atom "a"], .list [.atom "~", .atom "b"], .list [.atom "~", .atom "c"]] := by decide +kernel

/-- **C66.** Two or three lists of operators are needed. With one, terms with holes for operators are listed; with four, the operators
of the last are not used. -/
theorem C66_arities : (∃ L w ts, L.ops.length = 1 ∧ recursiveWorkload .atoms 3 L = some w ∧ w.force = some ts ∧
      .list [.atom "OP2", .atom "a", .atom "a"] ∈ ts) ∧
    ∃ L w ts, L.ops.length = 4 ∧ recursiveWorkload .depth 2 L = some w ∧ w.force = some ts ∧
      LangTerm L (.list [.atom "f", .atom "a", .atom "a", .atom "a", .atom "a"]) ∧
      (Sexp.list [.atom "f", .atom "a", .atom "a", .atom "a", .atom "a"]).measure .depth = some 2 ∧
      .list [.atom "f", .atom "a", .atom "a", .atom "a", .atom "a"] ∉ ts := by
  obtain ⟨w, ts, h1, h2, h3⟩ := forced_of (w := recursiveWorkload .atoms 3 (.new [] ["a"] [["g"]]))
    (p := fun ts => .list [.atom "OP2", .atom "a", .atom "a"] ∈ ts) (by decide +kernel)
  obtain ⟨w', ts', k1, k2, k3⟩ := forced_of (w := recursiveWorkload .depth 2 (.new [] ["a"] [[], [], [], ["f"]]))
    (p := fun ts => .list [.atom "f", .atom "a", .atom "a", .atom "a", .atom "a"] ∉ ts) (by decide +kernel)
  refine ⟨⟨_, w, ts, rfl, h1, h2, h3⟩, ⟨_, w', ts', rfl, k1, k2, ?_, by decide, k3⟩⟩
  have := kinded_langTerm (vals := []) (vars := ["a"]) (ops := [[], [], [], ["f"]])
    (H := fun a k => (a, k) ∈ [("a", 0), ("f", 4)]) (fun a k h => (by decide : ∀ q ∈ [("a", 0), ("f", 4)],
      kindCheck [] ["a"] [[], [], [], ["f"]] q = true) (a, k) h)
    (t := .list [.atom "f", .atom "a", .atom "a", .atom "a", .atom "a"])
    (.app (by simp) (by simp) fun a ha => by
      simp only [List.mem_cons, List.not_mem_nil, or_false, or_self] at ha
      exact ha ▸ .atom (by simp))
  exact this

/-- The terms without constants of the canonical workload of the Boolean recipe. -/
theorem boolCanon_eq (n : Nat) : boolCanon n = some ((plugAll (iterMetric (baseLang 2) "EXPR" .atoms n)
    (tab [("VAL", []), ("VAR", ["a", "b", "c"]), ("OP1", ["~"]), ("OP2", ["&", "|", "^"])])).addFilter (.canon ["a", "b", "c"])) := by
  unfold boolCanon
  simp only [Option.bind_eq_bind]
  rw [plugNew_words _ _ (by decide +kernel), Option.bind_some, plugNew_words _ _ (by decide +kernel), Option.bind_some,
    plugNew_words _ _ (by decide +kernel), Option.bind_some]
  rfl

/-- **C66.** The canonical workload of the Boolean recipe lists exactly the terms over `a`, `b`, `c` without constants that have
at most `n` atoms and are their own canonical form. -/
theorem C66_bool_canon (n : Nat) (hn : 1 ≤ n) : Lists (boolCanon n) fun t =>
    LangTerm (.new [] ["a", "b", "c"] [["~"], ["&", "|", "^"]]) t ∧ (∃ m, t.measure .atoms = some m ∧ m ≤ n) ∧
      t.canon ["a", "b", "c"] = some t := by
  obtain ⟨h1, h2⟩ := canon_level (L := .new [] ["a", "b", "c"] [["~"], ["&", "|", "^"]]) (langCheck_ok (by decide +kernel))
    .atoms n hn ["a", "b", "c"] (tabCheck_ok (P := [("VAL", []), ("VAR", ["a", "b", "c"]), ("OP1", ["~"]),
      ("OP2", ["&", "|", "^"])]) (by decide +kernel)) (tabRel_swap (by decide) _) rfl
  exact ⟨_, _, boolCanon_eq n, (Workload.AllSets.force h1).1, h2⟩

theorem bv4Canon_eq (n : Nat) : bv4Canon n = some (.append [(plugAll (iterMetric (baseLang 2) "EXPR" .atoms n)
    (tab [("VAR", ["a", "b", "c"]), ("VAL", []), ("OP1", ["~", "-"]), ("OP2", ["&", "|", "*", "--", "+", "<<", ">>"])])).addFilter
      (.canon ["a", "b", "c"]), .set ((texts ["0", "1"]).map word)]) := by
  unfold bv4Canon
  simp only [Option.bind_eq_bind]
  rw [plugNew_words _ _ (by decide +kernel), Option.bind_some, plugNew_words _ _ (by decide +kernel), Option.bind_some,
    plugNew_words _ _ (by decide +kernel), Option.bind_some, new_words (by decide +kernel), Option.bind_some]
  rfl

/-- **C66.** The canonical workload of the second bit-vector recipe lists exactly the constants 0 and 1, and the terms over `a`,
`b`, `c` without constants that have at most `n` atoms and are their own canonical form. -/
theorem C66_bv4_canon (n : Nat) (hn : 1 ≤ n) : Lists (bv4Canon n) fun t => IsWord ["0", "1"] t ∨
    LangTerm (.new [] ["a", "b", "c"] [["~", "-"], ["&", "|", "*", "--", "+", "<<", ">>"]]) t ∧
      (∃ m, t.measure .atoms = some m ∧ m ≤ n) ∧ t.canon ["a", "b", "c"] = some t := by
  obtain ⟨h1, h2⟩ := canon_level (L := .new [] ["a", "b", "c"] [["~", "-"], ["&", "|", "*", "--", "+", "<<", ">>"]])
    (langCheck_ok (by decide +kernel)) .atoms n hn ["a", "b", "c"] (tabCheck_ok (P := [("VAR", ["a", "b", "c"]), ("VAL", []),
      ("OP1", ["~", "-"]), ("OP2", ["&", "|", "*", "--", "+", "<<", ">>"])]) (by decide +kernel)) rfl rfl
  refine ⟨_, _, bv4Canon_eq n, (Workload.AllSets.force (.append fun w hw => ?_)).1, fun t => ?_⟩
  · rcases List.mem_cons.1 hw with rfl | hw
    · exact h1
    · rw [List.mem_singleton] at hw
      subst hw
      refine .set fun t ht => ?_
      obtain ⟨x, -, rfl⟩ := List.mem_map.1 ht
      exact NoEmpty.atom _
  · rw [Workload.forceT, Workload.forceTL, List.mem_append]
    refine or_comm.trans (or_congr ?_ (h2 t))
    simp only [Workload.forceTL, List.append_nil, Workload.forceT, List.map_map, List.mem_map, IsWord]
    refine exists_congr fun w => and_congr_right fun _ => ?_
    simp only [Function.comp, word, String.ofList_toList, eq_comm]

theorem canon_complete {L : RecipeLang} {S : List String} (hS : ∀ t, t ∈ L.vars ↔ String.ofList t ∈ S) (hn : S.Nodup)
    (hv : ∀ t ∈ L.vals, String.ofList t ∉ S) (ho : ∀ os ∈ L.ops, ∀ t ∈ os, String.ofList t ∉ S) {met : Metric} {n m : Nat}
    {t : Sexp} (ht : LangTerm L t) (hm : t.measure met = some m) (hle : m ≤ n) :
    ∃ c, ((LangTerm L c ∧ (∃ m, c.measure met = some m ∧ m ≤ n) ∧ c.canon S = some c) ∧ SameUpToRenaming S t c) ∧
      ∀ d, d.canon S = some d → SameUpToRenaming S t d → d = c := by
  obtain ⟨c, hc, hr⟩ := C09_canon_is_renaming S hn t
  have hr' := hr
  obtain ⟨ρ, r1, r2, r3, rfl⟩ := hr
  have hl := langTerm_rename hS hv ho r1 r3 ht
  refine ⟨_, ⟨⟨hl, ⟨m, ?_, hle⟩, C09_canon_idempotent S hn _ _ hc⟩, hr'⟩, fun d hd hs => ?_⟩
  · rw [Sexp.measure_noEmpty met _ (langTerm_noEmpty hl), rename_measureT, ← Sexp.measure_some _ _ _ hm]
  · have := (C09_canon_complete_invariant S hn t d).2 hs
    rw [hc, hd] at this
    exact (Option.some.inj this).symm

/-- **C66.** So every Boolean term over `a`, `b`, `c` without constants and with at most `n` atoms is, up to renaming variables,
exactly one of those listed. -/
theorem C66_bool_canon_complete (n : Nat) (hn : 1 ≤ n) : ∃ w ts, boolCanon n = some w ∧ w.force = some ts ∧
    ∀ t m, LangTerm (.new [] ["a", "b", "c"] [["~"], ["&", "|", "^"]]) t → t.measure .atoms = some m → m ≤ n →
      ∃ c, (c ∈ ts ∧ SameUpToRenaming ["a", "b", "c"] t c) ∧ ∀ d ∈ ts, SameUpToRenaming ["a", "b", "c"] t d → d = c := by
  obtain ⟨w, ts, h1, h2, h3⟩ := C66_bool_canon n hn
  refine ⟨w, ts, h1, h2, fun t m ht hm hle => ?_⟩
  have k1 : ∀ t, t ∈ texts ["a", "b", "c"] ↔ String.ofList t ∈ ["a", "b", "c"] := fun t => by
    constructor
    · intro h
      obtain ⟨s, hs, rfl⟩ := List.mem_map.1 h
      rwa [String.ofList_toList]
    · intro h
      exact List.mem_map.2 ⟨_, h, String.toList_ofList⟩
  obtain ⟨c, ⟨c1, c2⟩, c3⟩ := canon_complete (S := ["a", "b", "c"]) k1 (by decide) (fun t h => by cases h)
    (by decide +kernel) ht hm hle
  exact ⟨c, ⟨(h3 c).2 c1, c2⟩, fun d hd => c3 d ((h3 d).1 hd).2.2⟩

/-! ## Halide -/

theorem halideNested_eq {bops : List String} (h : ∀ t ∈ bops, Plain t) : halideNested bops =
    some ((plugAll (.plug (.set [.list [.atom "bop", .atom "e", .atom "e"], .atom "v"]) "e"
      (.set [.list [.atom "bop", .atom "v", .atom "v"], .list [.atom "uop", .atom "v"], .atom "v"]))
    (tab [("bop", bops), ("uop", ["-", "!"]), ("v", ["a", "b", "c"])])).addFilter (.canon ["a", "b", "c"])) := by
  have e1 : Workload.new ["(bop e e)", "v"] = some (.set [.list [.atom "bop", .atom "e", .atom "e"], .atom "v"]) := rfl
  have e2 : Workload.new ["(bop v v)", "(uop v)", "v"] =
    some (.set [.list [.atom "bop", .atom "v", .atom "v"], .list [.atom "uop", .atom "v"], .atom "v"]) := rfl
  unfold halideNested
  simp only [Option.bind_eq_bind, e1, Option.bind_some]
  rw [Workload.plugNew, e2, Option.map_some, Option.bind_some, plugNew_words _ _ h, Option.bind_some,
    plugNew_words _ _ (by decide +kernel), Option.bind_some, plugNew_words _ _ (by decide +kernel), Option.bind_some]
  cases bops <;> rfl

theorem isWord_iff {P : List (String × List (List Char))} {a : String} {l : List String} (h : P.lookup a = some (texts l)) {t : Sexp} :
    Maps (TabRel P) (.atom a) t ↔ IsWord l t := by
  rw [maps_atom, IsWord]
  simp only [tabRel_texts h]
  exact exists_congr fun b => and_comm

/-- **C66.** The nested workloads of the Halide recipe list exactly the variables and the binary operators on arguments that are
variables or have one operator, of which only canonical ones. -/
theorem C66_halide_nested {bops : List String} (hb : bops = halideArith ∨ bops = halideFull) : Lists (halideNested bops) fun t =>
    (IsWord ["a", "b", "c"] t ∨ Binary bops (HalideArg bops) (HalideArg bops) t) ∧ t.canon ["a", "b", "c"] = some t := by
  have hp : ∀ t ∈ bops, Plain t := by rcases hb with rfl | rfl <;> decide +kernel
  have hok : TabOk (tab [("bop", bops), ("uop", ["-", "!"]), ("v", ["a", "b", "c"])]) :=
    tabCheck_ok (by rcases hb with rfl | rfl <;> decide +kernel)
  have hs : AllSets NoEmpty (.plug (.set [.list [.atom "bop", .atom "e", .atom "e"], .atom "v"]) "e"
      (.set [.list [.atom "bop", .atom "v", .atom "v"], .list [.atom "uop", .atom "v"], .atom "v"])) :=
    Workload.sig_sets (S := [("bop", 2), ("v", 0), ("bop", 2), ("v", 0), ("v", 0), ("uop", 1), ("v", 0), ("v", 0)])
      (by decide +kernel)
  obtain ⟨h1, h2⟩ := plugAll_spec hs hok
  refine ⟨_, _, halideNested_eq hp, (Workload.AllSets.force (Workload.AllSets.addFilter h1 _)).1, fun t => ?_⟩
  rw [Workload.forceT_addFilter, List.mem_filter, h2]
  simp only [Filter.testT, decide_eq_true_eq]
  refine and_congr_left fun _ => ?_
  have key : ∀ s, s ∈ Workload.forceT (.plug (.set [.list [.atom "bop", .atom "e", .atom "e"], .atom "v"]) "e"
      (.set [.list [.atom "bop", .atom "v", .atom "v"], .list [.atom "uop", .atom "v"], .atom "v"])) ↔
      s = .atom "v" ∨ ∃ x y, (x = .list [.atom "bop", .atom "v", .atom "v"] ∨ x = .list [.atom "uop", .atom "v"] ∨ x = .atom "v") ∧
        (y = .list [.atom "bop", .atom "v", .atom "v"] ∨ y = .list [.atom "uop", .atom "v"] ∨ y = .atom "v") ∧
        s = .list [.atom "bop", x, y] := by
    intro s
    have e : Workload.forceT (.plug (.set [.list [.atom "bop", .atom "e", .atom "e"], .atom "v"]) "e"
      (.set [.list [.atom "bop", .atom "v", .atom "v"], .list [.atom "uop", .atom "v"], .atom "v"])) =
      ([Sexp.list [.atom "bop", .atom "v", .atom "v"], .list [.atom "uop", .atom "v"], .atom "v"].flatMap fun x =>
        [Sexp.list [.atom "bop", .atom "v", .atom "v"], .list [.atom "uop", .atom "v"], .atom "v"].map fun y =>
          Sexp.list [.atom "bop", x, y]) ++ [.atom "v"] := by decide +kernel
    rw [e, List.mem_append, List.mem_singleton, or_comm]
    refine or_congr_right ?_
    rw [List.mem_flatMap]
    simp only [List.mem_map, List.mem_cons, List.not_mem_nil, or_false]
    constructor
    · rintro ⟨x, hx, y, hy, rfl⟩; exact ⟨x, y, hx, hy, rfl⟩
    · rintro ⟨x, y, hx, hy, rfl⟩; exact ⟨x, hx, y, hy, rfl⟩
  have arg : ∀ t, (∃ x, (x = Sexp.list [.atom "bop", .atom "v", .atom "v"] ∨ x = .list [.atom "uop", .atom "v"] ∨ x = .atom "v") ∧
      Maps (TabRel (tab [("bop", bops), ("uop", ["-", "!"]), ("v", ["a", "b", "c"])])) x t) ↔ HalideArg bops t := by
    intro t
    simp only [or_and_right, exists_or, exists_eq_left, maps_binary, maps_unary,
      isWord_iff (P := tab [("bop", bops), ("uop", ["-", "!"]), ("v", ["a", "b", "c"])]) (a := "v") (l := ["a", "b", "c"]) rfl,
      tabRel_texts (P := tab [("bop", bops), ("uop", ["-", "!"]), ("v", ["a", "b", "c"])]) (a := "bop") (l := bops) rfl,
      tabRel_texts (P := tab [("bop", bops), ("uop", ["-", "!"]), ("v", ["a", "b", "c"])]) (a := "uop") (l := ["-", "!"]) rfl]
    unfold HalideArg Unary Binary
    constructor
    · rintro (⟨o, x, y, ho, hx, hy, e⟩ | ⟨o, x, ho, hx, e⟩ | h)
      · exact .inr (.inr ⟨o, ho, x, y, hx, hy, e⟩)
      · exact .inr (.inl ⟨o, ho, x, hx, e⟩)
      · exact .inl h
    · rintro (h | ⟨o, ho, x, hx, e⟩ | ⟨o, ho, x, y, hx, hy, e⟩)
      · exact .inr (.inr h)
      · exact .inr (.inl ⟨o, x, ho, hx, e⟩)
      · exact .inl ⟨o, x, y, ho, hx, hy, e⟩
  constructor
  · rintro ⟨s, hs, hm⟩
    rcases (key s).1 hs with rfl | ⟨x, y, hx, hy, rfl⟩
    · exact .inl ((isWord_iff (l := ["a", "b", "c"]) rfl).1 hm)
    · obtain ⟨o, e1, e2, ho, h3, h4, rfl⟩ := maps_binary.1 hm
      exact .inr ⟨o, (tabRel_texts (l := bops) rfl).1 ho, e1, e2, (arg e1).1 ⟨x, hx, h3⟩, (arg e2).1 ⟨y, hy, h4⟩, rfl⟩
  · rintro (h | ⟨o, ho, e1, e2, h3, h4, rfl⟩)
    · exact ⟨_, (key _).2 (.inl rfl), (isWord_iff (l := ["a", "b", "c"]) rfl).2 h⟩
    · obtain ⟨x, hx, h3⟩ := (arg e1).2 h3
      obtain ⟨y, hy, h4⟩ := (arg e2).2 h4
      exact ⟨_, (key _).2 (.inr ⟨x, y, hx, hy, rfl⟩), maps_binary.2 ⟨o, e1, e2, (tabRel_texts (l := bops) rfl).2 ho, h3, h4, rfl⟩⟩

theorem halideSelect_eq {ops : List String} (h : ∀ t ∈ ops, Plain t) : halideSelect ops =
    some (plugAll (.set [.list [.atom "select", .atom "V", .atom "V", .atom "V"],
      .list [.atom "select", .atom "V", .list [.atom "OP", .atom "V", .atom "V"], .atom "V"],
      .list [.atom "select", .atom "V", .atom "V", .list [.atom "OP", .atom "V", .atom "V"]],
      .list [.atom "select", .atom "V", .list [.atom "OP", .atom "V", .atom "V"], .list [.atom "OP", .atom "V", .atom "V"]],
      .list [.atom "OP", .atom "V", .list [.atom "select", .atom "V", .atom "V", .atom "V"]]])
    (tab [("V", ["a", "b", "c", "d"]), ("OP", ops)])) := by
  have e1 : Workload.new ["(select V V V)", "(select V (OP V V) V)", "(select V V (OP V V))",
    "(select V (OP V V) (OP V V))", "(OP V (select V V V))"] = some (.set [.list [.atom "select", .atom "V", .atom "V", .atom "V"],
      .list [.atom "select", .atom "V", .list [.atom "OP", .atom "V", .atom "V"], .atom "V"],
      .list [.atom "select", .atom "V", .atom "V", .list [.atom "OP", .atom "V", .atom "V"]],
      .list [.atom "select", .atom "V", .list [.atom "OP", .atom "V", .atom "V"], .list [.atom "OP", .atom "V", .atom "V"]],
      .list [.atom "OP", .atom "V", .list [.atom "select", .atom "V", .atom "V", .atom "V"]]]) := rfl
  unfold halideSelect
  simp only [Option.bind_eq_bind, e1, Option.bind_some]
  rw [plugNew_words _ _ (by decide +kernel), Option.bind_some, plugNew_words _ _ h]
  rfl

/-- **C66.** The selection workloads of the Halide recipe list exactly the selections between variables, or between a variable and
one operator on variables, or between two such, and one operator on a variable and a selection between variables. -/
theorem C66_halide_select {ops : List String} (hb : ops = ["+", "-", "*"] ∨ ops = ["min", "max"]) :
    Lists (halideSelect ops) fun t =>
      let V := IsWord ["a", "b", "c", "d"]
      Ternary ["select"] V V V t ∨ Ternary ["select"] V (Binary ops V V) V t ∨ Ternary ["select"] V V (Binary ops V V) t ∨
        Ternary ["select"] V (Binary ops V V) (Binary ops V V) t ∨ Binary ops V (Ternary ["select"] V V V) t := by
  have hp : ∀ t ∈ ops, Plain t := by rcases hb with rfl | rfl <;> decide +kernel
  have hok : TabOk (tab [("V", ["a", "b", "c", "d"]), ("OP", ops)]) :=
    tabCheck_ok (by rcases hb with rfl | rfl <;> decide +kernel)
  have hs : AllSets NoEmpty (.set [Sexp.list [.atom "select", .atom "V", .atom "V", .atom "V"],
      .list [.atom "select", .atom "V", .list [.atom "OP", .atom "V", .atom "V"], .atom "V"],
      .list [.atom "select", .atom "V", .atom "V", .list [.atom "OP", .atom "V", .atom "V"]],
      .list [.atom "select", .atom "V", .list [.atom "OP", .atom "V", .atom "V"], .list [.atom "OP", .atom "V", .atom "V"]],
      .list [.atom "OP", .atom "V", .list [.atom "select", .atom "V", .atom "V", .atom "V"]]]) := by
    refine .set fun t ht => ?_
    simp only [List.mem_cons, List.not_mem_nil, or_false] at ht
    rcases ht with rfl | rfl | rfl | rfl | rfl <;> simp [NoEmpty.list_iff, NoEmpty.atom]
  obtain ⟨h1, h2⟩ := plugAll_spec hs hok
  refine ⟨_, _, halideSelect_eq hp, (Workload.AllSets.force h1).1, fun t => ?_⟩
  rw [h2]
  have sel : ∀ b, TabRel (tab [("V", ["a", "b", "c", "d"]), ("OP", ops)]) "select" b ↔ b = "select" := fun b => Iff.rfl
  simp only [Workload.forceT, List.mem_cons, List.not_mem_nil, or_false, or_and_right, exists_or, exists_eq_left, maps_binary,
    maps_ternary, isWord_iff (P := tab [("V", ["a", "b", "c", "d"]), ("OP", ops)]) (a := "V") (l := ["a", "b", "c", "d"]) rfl,
    tabRel_texts (P := tab [("V", ["a", "b", "c", "d"]), ("OP", ops)]) (a := "OP") (l := ops) rfl, sel, Ternary, Binary,
    exists_and_left]

/-! ## Rational numbers -/

theorem rationalLayer1_eq : rationalLayer1 = some (plugAll (baseLang 2) (tab [("OP1", ["~", "fabs"]),
    ("OP2", ["+", "-", "*", "/"]), ("VAL", ["0", "-1", "1"]), ("VAR", ["a", "b", "c"]),
    ("EXPR", ["a", "b", "c", "0", "-1", "1"])])) := by
  unfold rationalLayer1 rationalGrammar
  simp only [Option.bind_eq_bind]
  rw [plugNew_words _ _ (by decide +kernel), Option.bind_some, plugNew_words _ _ (by decide +kernel), Option.bind_some,
    new_words (by decide +kernel), Option.bind_some, new_words (by decide +kernel), Option.bind_some]
  rfl

theorem rationalLayer1_spec : ∃ w, rationalLayer1 = some w ∧ AllSets NoEmpty w ∧ ∀ t, t ∈ w.forceT ↔ RationalOne t := by
  obtain ⟨h1, h2⟩ := plugAll_spec (baseLang_sets 2) (tabCheck_ok (P := [("OP1", ["~", "fabs"]),
    ("OP2", ["+", "-", "*", "/"]), ("VAL", ["0", "-1", "1"]), ("VAR", ["a", "b", "c"]),
    ("EXPR", ["a", "b", "c", "0", "-1", "1"])]) (by decide +kernel))
  refine ⟨_, rationalLayer1_eq, h1, fun t => ?_⟩
  rw [h2]
  have e : (baseLang 2).forceT = [.atom "VAR", .atom "VAL", .list [.atom "OP1", .atom "EXPR"],
    .list [.atom "OP2", .atom "EXPR", .atom "EXPR"]] := by decide +kernel
  generalize hT : tab [("OP1", ["~", "fabs"]), ("OP2", ["+", "-", "*", "/"]), ("VAL", ["0", "-1", "1"]), ("VAR", ["a", "b", "c"]),
    ("EXPR", ["a", "b", "c", "0", "-1", "1"])] = T
  have t1 := @isWord_iff T "VAR" ["a", "b", "c"] (by subst hT; rfl)
  have t2 := @isWord_iff T "VAL" ["0", "-1", "1"] (by subst hT; rfl)
  have t3 := @isWord_iff T "EXPR" ["a", "b", "c", "0", "-1", "1"] (by subst hT; rfl)
  have t4 := @tabRel_texts T "OP1" ["~", "fabs"] (by subst hT; rfl)
  have t5 := @tabRel_texts T "OP2" ["+", "-", "*", "/"] (by subst hT; rfl)
  simp only [e, List.mem_cons, List.not_mem_nil, or_false, or_and_right, exists_or, exists_eq_left, maps_binary,
    maps_unary, t1, t2, t3, t4, t5, RationalOne, Unary, Binary, exists_and_left]
  rw [← or_assoc]
  refine or_congr_left ?_
  simp only [IsWord, List.mem_cons, List.not_mem_nil, or_false, or_and_right, exists_or, exists_eq_left]
  tauto

/-- **C66.** The first workload of the rational recipe lists exactly the variables, the constants and one operator on them. -/
theorem C66_rational_one : Lists rationalLayer1 RationalOne := by
  obtain ⟨w, h1, h2, h3⟩ := rationalLayer1_spec
  exact ⟨w, _, h1, (Workload.AllSets.force h2).1, h3⟩

theorem rationalOne_kinded {t : Sexp} (h : RationalOne t) : Kinded (fun a _ => a ∉ ["VAR", "VAL"]) t := by
  have w : ∀ x, IsWord ["a", "b", "c", "0", "-1", "1"] x → Kinded (fun a _ => a ∉ ["VAR", "VAL"]) x := by
    rintro x ⟨a, ha, rfl⟩
    exact .atom ((by decide : ∀ a ∈ ["a", "b", "c", "0", "-1", "1"], a ∉ ["VAR", "VAL"]) a ha)
  rcases h with h | ⟨o, ho, x, hx, rfl⟩ | ⟨o, ho, x, y, hx, hy, rfl⟩
  · exact w t h
  · refine .app (by simp) ((by decide : ∀ a ∈ ["~", "fabs"], a ∉ ["VAR", "VAL"]) o ho) fun a ha => ?_
    rw [List.mem_singleton] at ha
    exact ha ▸ w x hx
  · refine .app (by simp) ((by decide : ∀ a ∈ ["+", "-", "*", "/"], a ∉ ["VAR", "VAL"]) o ho) fun a ha => ?_
    simp only [List.mem_cons, List.not_mem_nil, or_false] at ha
    rcases ha with rfl | rfl
    · exact w _ hx
    · exact w _ hy

/-- **C66.** The second workload of the rational recipe lists exactly the operators on terms of the first that have a
variable. -/
theorem C66_rational_two : Lists rationalLayer2 fun t =>
    (Unary ["~", "fabs"] RationalOne t ∨ Binary ["+", "-", "*", "/"] RationalOne RationalOne t) ∧
      ∃ v ∈ ["a", "b", "c"], Subterm (.atom v) t := by
  obtain ⟨w1, h1, h2, h3⟩ := rationalLayer1_spec
  have hg : rationalGrammar = some (plugAll (baseLang 2) (tab [("OP1", ["~", "fabs"]), ("OP2", ["+", "-", "*", "/"])])) := by
    unfold rationalGrammar
    simp only [Option.bind_eq_bind]
    rw [plugNew_words _ _ (by decide +kernel), Option.bind_some, plugNew_words _ _ (by decide +kernel)]
    rfl
  have hps : ["a", "b", "c"].mapM Pattern.new = some [.lit "a", .lit "b", .lit "c"] := by rfl
  have hgs : AllSets NoEmpty (plugAll (baseLang 2) (tab [("OP1", ["~", "fabs"]), ("OP2", ["+", "-", "*", "/"])])) :=
    (plugAll_spec (baseLang_sets 2) (tabCheck_ok (by decide +kernel))).1
  have e : (plugAll (baseLang 2) (tab [("OP1", ["~", "fabs"]), ("OP2", ["+", "-", "*", "/"])])).forceT =
      [.atom "VAR", .atom "VAL"] ++ ((["~", "fabs"].map fun o => .list [.atom o, .atom "EXPR"]) ++
      ["+", "-", "*", "/"].map fun o => .list [.atom o, .atom "EXPR", .atom "EXPR"]) := by decide +kernel
  generalize plugAll (baseLang 2) (tab [("OP1", ["~", "fabs"]), ("OP2", ["+", "-", "*", "/"])]) = G at hg hgs e
  have hs : AllSets NoEmpty (G.doPlug "EXPR" w1) := Workload.AllSets.doPlug hgs h2
  refine ⟨_, _, by simp only [rationalLayer2, Option.bind_eq_bind, hg, h1, hps, Option.bind_some]; rfl,
    (Workload.AllSets.force (Workload.AllSets.addFilter (Workload.AllSets.addFilter (Workload.AllSets.addFilter hs _) _) _)).1,
    fun t => ?_⟩
  rw [Workload.forceT_addFilter, Workload.forceT_addFilter, Workload.forceT_addFilter, List.mem_filter, List.mem_filter,
    List.mem_filter, mem_doPlug hgs h2 (by decide)]
  rw [ofAtom_literal (by decide), ofAtom_literal (by decide)]
  simp only [Filter.testT, Filter.testTAny, List.map, Bool.or_eq_true, containsTest_lit, Bool.not_eq_true', Bool.or_false,
    ← Bool.not_eq_true]
  rw [e]
  have hv : (Subterm (.atom "a") t ∨ Subterm (.atom "b") t ∨ Subterm (.atom "c") t) ↔
      ∃ v ∈ ["a", "b", "c"], Subterm (.atom v) t := by simp
  rw [hv]
  have fu : ∀ o ∈ ["~", "fabs"], (Fills "EXPR" (· ∈ w1.forceT) (.list [.atom o, .atom "EXPR"]) t ↔
      ∃ x, RationalOne x ∧ t = .list [.atom o, x]) := fun o ho => by
    rw [fills_unary ((by decide : ∀ o ∈ ["~", "fabs"], o ≠ "EXPR") o ho)]
    simp only [fills_hole, h3]
  have fb : ∀ o ∈ ["+", "-", "*", "/"], (Fills "EXPR" (· ∈ w1.forceT) (.list [.atom o, .atom "EXPR", .atom "EXPR"]) t ↔
      ∃ x y, RationalOne x ∧ RationalOne y ∧ t = .list [.atom o, x, y]) := fun o ho => by
    rw [fills_binary ((by decide : ∀ o ∈ ["+", "-", "*", "/"], o ≠ "EXPR") o ho)]
    simp only [fills_hole, h3]
  constructor
  · rintro ⟨⟨⟨⟨s, hs, hf⟩, hc⟩, -⟩, -⟩
    refine ⟨?_, hc⟩
    rcases List.mem_append.1 hs with hs | hs
    · exfalso
      obtain ⟨v, hv, hsub⟩ := hc
      simp only [List.mem_cons, List.not_mem_nil, or_false] at hs
      rcases hs with rfl | rfl
      · rw [(fills_other (by decide)).1 hf, Subterm.atom_iff] at hsub
        exact (by decide : ∀ v ∈ ["a", "b", "c"], v ≠ "VAR") v hv (Sexp.atom.inj hsub)
      · rw [(fills_other (by decide)).1 hf, Subterm.atom_iff] at hsub
        exact (by decide : ∀ v ∈ ["a", "b", "c"], v ≠ "VAL") v hv (Sexp.atom.inj hsub)
    · rcases List.mem_append.1 hs with hs | hs
      · obtain ⟨o, ho, rfl⟩ := List.mem_map.1 hs
        exact .inl ⟨o, ho, (fu o ho).1 hf⟩
      · obtain ⟨o, ho, rfl⟩ := List.mem_map.1 hs
        exact .inr ⟨o, ho, (fb o ho).1 hf⟩
  · rintro ⟨ht, hc⟩
    have hk : Kinded (fun a _ => a ∉ ["VAR", "VAL"]) t := by
      rcases ht with ⟨o, ho, x, hx, rfl⟩ | ⟨o, ho, x, y, hx, hy, rfl⟩
      · refine .app (by simp) ((by decide : ∀ a ∈ ["~", "fabs"], a ∉ ["VAR", "VAL"]) o ho) fun a ha => ?_
        rw [List.mem_singleton] at ha
        exact ha ▸ rationalOne_kinded hx
      · refine .app (by simp) ((by decide : ∀ a ∈ ["+", "-", "*", "/"], a ∉ ["VAR", "VAL"]) o ho) fun a ha => ?_
        simp only [List.mem_cons, List.not_mem_nil, or_false] at ha
        rcases ha with rfl | rfl
        · exact rationalOne_kinded hx
        · exact rationalOne_kinded hy
    refine ⟨⟨⟨?_, hc⟩, fun h => ?_⟩, fun h => ?_⟩
    · rcases ht with ⟨o, ho, h⟩ | ⟨o, ho, h⟩
      · exact ⟨_, List.mem_append_right _ (List.mem_append_left _ (List.mem_map_of_mem ho)), (fu o ho).2 h⟩
      · exact ⟨_, List.mem_append_right _ (List.mem_append_right _ (List.mem_map_of_mem ho)), (fb o ho).2 h⟩
    · obtain ⟨_, h⟩ := hk.subterm h rfl
      simp at h
    · obtain ⟨_, h⟩ := hk.subterm h rfl
      simp at h

/-- **C66.** The factorisation workload of the rational recipe lists exactly the quotients of two sums or differences of
products of variables. -/
theorem C66_rational_factors : Lists rationalFactors (Binary ["/"] Factor Factor) := by
  have e1 : Workload.new ["var", "(* expr expr)"] = some (.set [.atom "var", .list [.atom "*", .atom "expr", .atom "expr"]]) := rfl
  have e2 : Workload.new ["var", "(bop expr expr)"] = some (.set [.atom "var", .list [.atom "bop", .atom "expr", .atom "expr"]]) :=
    rfl
  have e3 : Workload.new ["(/ v v)"] = some (.set [.list [.atom "/", .atom "v", .atom "v"]]) := rfl
  have s1 : AllSets NoEmpty (.set [.atom "var", .list [.atom "*", .atom "expr", .atom "expr"]]) := by
    refine .set fun t ht => ?_
    simp only [List.mem_cons, List.not_mem_nil, or_false] at ht
    rcases ht with rfl | rfl <;> simp [NoEmpty.list_iff, NoEmpty.atom]
  have s2 : AllSets NoEmpty (.set [.atom "var", .list [.atom "bop", .atom "expr", .atom "expr"]]) := by
    refine .set fun t ht => ?_
    simp only [List.mem_cons, List.not_mem_nil, or_false] at ht
    rcases ht with rfl | rfl <;> simp [NoEmpty.list_iff, NoEmpty.atom]
  have s3 : AllSets NoEmpty (.set [.list [.atom "/", .atom "v", .atom "v"]]) := by
    refine .set fun t ht => ?_
    simp only [List.mem_cons, List.not_mem_nil, or_false] at ht
    subst ht; simp [NoEmpty.list_iff, NoEmpty.atom]
  have f1 : (iterMetric (.set [.atom "var", .list [.atom "*", .atom "expr", .atom "expr"]]) "expr" .atoms 3).forceT =
      [.atom "var", .list [.atom "*", .atom "var", .atom "var"]] := by decide +kernel
  have f2 : (iterMetric (.set [.atom "var", .list [.atom "bop", .atom "expr", .atom "expr"]]) "expr" .depth 2).forceT =
      [.atom "var", .list [.atom "bop", .atom "var", .atom "var"]] := by decide +kernel
  obtain ⟨m1, m2⟩ := plugAll_spec (iterMetric_sets s1 "expr" .atoms 3) (tabCheck_ok (P := [("var", ["a", "b"])]) (by decide +kernel))
  have hmono : ∀ t, t ∈ (plugAll (iterMetric (.set [.atom "var", .list [.atom "*", .atom "expr", .atom "expr"]]) "expr" .atoms 3)
      (tab [("var", ["a", "b"])])).forceT ↔ Monomial t := fun t => by
    have k1 := @isWord_iff (tab [("var", ["a", "b"])]) "var" ["a", "b"] rfl
    have k2 : ∀ b, TabRel (tab [("var", ["a", "b"])]) "*" b ↔ b = "*" := fun b => Iff.rfl
    rw [m2, f1]
    simp only [List.mem_cons, List.not_mem_nil, or_false, or_and_right, exists_or, exists_eq_left, maps_binary, k1, k2,
      Monomial, Binary, exists_and_left]
  have mk : ∀ x, Monomial x → Kinded (fun a _ => a ≠ "bop") x := by
    have w : ∀ x, IsWord ["a", "b"] x → Kinded (fun a _ => a ≠ "bop") x := by
      rintro x ⟨a, ha, rfl⟩
      exact .atom ((by decide : ∀ a ∈ ["a", "b"], a ≠ "bop") a ha)
    rintro x (h | ⟨o, ho, x, y, hx, hy, rfl⟩)
    · exact w x h
    · rw [List.mem_singleton] at ho
      subst ho
      refine .app (by simp) (by decide) fun a ha => ?_
      simp only [List.mem_cons, List.not_mem_nil, or_false] at ha
      rcases ha with rfl | rfl
      · exact w _ hx
      · exact w _ hy
  have mfix : ∀ s, Monomial s → ∀ t, Maps (TabRel (tab [("bop", ["+", "-"])])) s t ↔ t = s := fun s hs t => by
    rw [maps_congr (τ := fun a b => b = a), maps_eq]
    intro a ha b
    obtain ⟨_, hk⟩ := (mk s hs).subterm ha rfl
    have : List.lookup a (tab [("bop", ["+", "-"])]) = none := lookup_none_of_not_mem (by simpa using hk)
    rw [TabRel, this]
  generalize hM : plugAll (iterMetric (.set [.atom "var", .list [.atom "*", .atom "expr", .atom "expr"]]) "expr" .atoms 3)
      (tab [("var", ["a", "b"])]) = M at m1 hmono
  have s4 := iterMetric_sets s2 "expr" .depth 2
  have d1 := Workload.AllSets.doPlug (name := "var") s4 m1
  obtain ⟨d2, d3⟩ := plugAll_spec d1 (tabCheck_ok (P := [("bop", ["+", "-"])]) (by decide +kernel))
  have hfac : ∀ t, t ∈ (plugAll ((iterMetric (.set [.atom "var", .list [.atom "bop", .atom "expr", .atom "expr"]]) "expr" .depth
      2).doPlug "var" M) (tab [("bop", ["+", "-"])])).forceT ↔ Factor t := fun t => by
    have k1 := @tabRel_texts (tab [("bop", ["+", "-"])]) "bop" ["+", "-"] rfl
    rw [d3]
    simp only [mem_doPlug s4 m1 (by decide : LiteralName "var"), f2, List.mem_cons, List.not_mem_nil, or_false, or_and_right,
      exists_or, exists_eq_left, fills_hole, fills_binary (by decide : "bop" ≠ "var"), hmono]
    unfold Factor Binary
    constructor
    · rintro (⟨s, hs, hm⟩ | ⟨s, ⟨x, y, hx, hy, rfl⟩, hm⟩)
      · exact .inl (((mfix s hs t).1 hm).symm ▸ hs)
      · obtain ⟨o, e1, e2, ho, g1, g2, rfl⟩ := maps_binary.1 hm
        rw [mfix x hx] at g1
        rw [mfix y hy] at g2
        subst g1 g2
        exact .inr ⟨o, k1.1 ho, _, _, hx, hy, rfl⟩
    · rintro (h | ⟨o, ho, x, y, hx, hy, rfl⟩)
      · exact .inl ⟨t, h, (mfix t h t).2 rfl⟩
      · exact .inr ⟨_, ⟨x, y, hx, hy, rfl⟩, maps_binary.2 ⟨o, x, y, k1.2 ho, (mfix x hx x).2 rfl, (mfix y hy y).2 rfl, rfl⟩⟩
  refine ⟨_, _, ?_, (Workload.AllSets.force (Workload.AllSets.doPlug (name := "v") s3 d2)).1, fun t => ?_⟩
  · unfold rationalFactors
    simp only [Option.bind_eq_bind, e1, e2, e3, Option.bind_some]
    rw [plugNew_words _ _ (by decide +kernel), Option.bind_some, plugNew_words _ _ (by decide +kernel), Option.bind_some]
    rw [show [("var", texts ["a", "b"])] = tab [("var", ["a", "b"])] from rfl, hM]
    rfl
  · rw [mem_doPlug s3 d2 (by decide)]
    simp only [Workload.forceT, List.mem_singleton, exists_eq_left, fills_binary (by decide : "/" ≠ "v"), fills_hole, hfac, Binary]

/-! ## All terms can be read -/

/-- **C66.** The terms of every level of `recursive_rules` can be read if the words of the language are operators with the right
number of arguments. -/
theorem C66_level_readable {O : Type} [Lang O] {vals vars : List String} {ops : List (List String)}
    (h : LangOk (.new vals vars ops)) (h0 : ∀ a ∈ vals ++ vars, ∃ o : O, Lang.fromOp a 0 = some o)
    (h1 : ∀ i os, ops[i]? = some os → ∀ a ∈ os, ∃ o : O, Lang.fromOp a (i + 1) = some o) (met : Metric) (n : Nat) (hn : 1 ≤ n) :
    ∃ w ts, recursiveWorkload met n (.new vals vars ops) = some w ∧ w.force = some ts ∧
      ∀ t ∈ ts, ∃ e : Tm O, Tm.ofSexp t = some e := by
  obtain ⟨w, ts, k1, k2, k3⟩ := C66_level h met n hn
  refine ⟨w, ts, k1, k2, fun t ht => (langTerm_kinded ((k3 t).1 ht).1).ofSexp fun a k hk => ?_⟩
  cases k with
  | zero =>
    simp only [kindCheck, decide_eq_true_eq] at hk
    exact h0 a hk
  | succ k =>
    simp only [kindCheck] at hk
    split at hk
    · rename_i os hos
      rw [decide_eq_true_eq] at hk
      exact h1 k os hos a hk
    · cases hk

theorem readableIn_of {O : Type} [Lang O] {w : Option Workload} (h : readable O w = true) : ReadableIn O w := by
  obtain ⟨w', h1, ts, h2, h3⟩ := readable_spec h
  exact ⟨w', ts, h1, h2, h3⟩

/-- **C66.** Every term of every workload of the recipes that run inference with vectors or a solver can be read in the language. -/
theorem C66_readable : ReadableIn BoolOp (boolCanon 7) ∧ ReadableIn (BvOp 4) (bv4Canon 6) ∧
    ReadableIn PredOp (halideNested halideArith) ∧ ReadableIn PredOp (halideNested halideFull) ∧
    ReadableIn PredOp (halideSelect ["+", "-", "*"]) ∧ ReadableIn PredOp (halideSelect ["min", "max"]) ∧
    ReadableIn MathOp rationalLayer1 ∧ ReadableIn MathOp rationalLayer2 ∧ ReadableIn MathOp rationalFactors :=
  ⟨readableIn_of (by decide +kernel), readableIn_of (by decide +kernel), readableIn_of (by decide +kernel),
    readableIn_of (by decide +kernel), readableIn_of (by decide +kernel), readableIn_of (by decide +kernel),
    readableIn_of (by decide +kernel), readableIn_of (by decide +kernel), readableIn_of (by decide +kernel)⟩

/-! ## Fast-forwarding recipes -/

theorem readableLists_of {O : Type} [Lang O] {vals vars : List String} {ops : List (List String)} {n : Nat}
    {ws : Option (List Workload)} (h : (match ws with
      | some l => decide (l.length = n) && l.all (langReadable O vals vars ops)
      | none => false) = true) : ReadableLists O (.new vals vars ops) n ws := by
  split at h
  · rename_i l
    rw [Bool.and_eq_true, decide_eq_true_eq, List.all_eq_true] at h
    exact ⟨l, rfl, h.1, fun w hw => langReadable_spec (h.2 w hw)⟩
  · cases h

/-- **C66.** Every term of every workload of the trigonometric recipe is made of `a`, `b`, the constants and the operators below, and
can be read. -/
theorem C66_trig :
    ReadableLists TrigOp (.new ["0", "2", "3", "4", "6", "PI"] ["a", "b"] [["sin", "cos", "tan", "~", "sqr"], ["+", "-", "*", "/"]]) 3
      trigWorkloads1 ∧
    ReadableLists TrigOp (.new ["-2", "-1", "0", "1", "2", "PI"] ["a", "b"] [["sin", "cos", "sqr"], ["+", "-", "*", "/"]]) 4
      trigWorkloads2 :=
  ⟨readableLists_of (by decide +kernel), readableLists_of (by decide +kernel)⟩

/-- **C66.** Every term of every workload of the exponential recipe is made of `a`, `b`, `c`, the constants and the operators below,
and can be read. -/
theorem C66_exp : ReadableLists ExpOp (.new ["0", "1"] ["a", "b", "c"] [["exp", "log", "sqrt", "cbrt"], ["+", "*", "pow", "/"]]) 6
    expWorkloads :=
  readableLists_of (by decide +kernel)

/-- **C66** (refuted in part). The lower layer of the workload of `log_rules` is meant to have products: had the hole been named
`bop`, `(log (* a b))` would be listed. The code plugs into `bup`, which does not occur, and the sums of the upper layer end up in
the lower one: no term with a product is listed. -/
theorem C66_log : (∃ w ts, logLayer "bop" = some w ∧ w.force = some ts ∧
      .list [.atom "log", .list [.atom "*", .atom "a", .atom "b"]] ∈ ts) ∧
    ∃ w ts, logLayer "bup" = some w ∧ w.force = some ts ∧ .list [.atom "log", .list [.atom "+", .atom "a", .atom "b"]] ∈ ts ∧
      ∀ t ∈ ts, ¬ Subterm (.atom "*") t := by
  refine ⟨forced_of (p := fun ts => _ ∈ ts) (by decide +kernel), ?_⟩
  obtain ⟨w, ts, h1, h2, h3⟩ := forced_of (w := logLayer "bup")
    (p := fun ts => .list [.atom "log", .list [.atom "+", .atom "a", .atom "b"]] ∈ ts) (by decide +kernel)
  refine ⟨w, ts, h1, h2, h3, fun t ht hs => ?_⟩
  have hsig : (logLayer "bup").bind Workload.sig =
      some [("a", 0), ("b", 0), ("c", 0), ("log", 1), ("log", 1), ("+", 2), ("+", 2)] := by decide +kernel
  rw [h1] at hsig
  rw [Workload.force_some _ _ h2] at ht
  obtain ⟨k, hk⟩ := (Workload.sig_kinded hsig t ht).subterm hs rfl
  simp at hk

end Ruler
