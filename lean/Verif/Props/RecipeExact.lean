import Verif.Props.RecipeWorkloads
import Verif.Proofs.RecipeExact
/-!
# Property C66, continued: exactly which terms the workloads of the exponential and the trigonometric recipe list
-/
namespace Ruler
open Spec

/-- Fill holes in a description. -/
macro "fill_simp" : tactic => `(tactic| simp (disch := first | assumption | decide) only
  [fill_or, fill_hole, fill_word, fill_unary, fill_binary, fill_unary_head, fill_binary_head])

theorem new_of_parse {l : List String} {ts : List Sexp} (h : (l.map String.toList).mapM Sexp.parse = some ts) :
    Workload.new l = some (.set ts) := by
  rw [Workload.new, Workload.ofTexts, h]; rfl

theorem pattern_of_parse {a : String} {t : Sexp} {p : Pattern} (h : Sexp.parse a.toList = some t) (hp : Pattern.ofSexp t = p) :
    Pattern.new a = some p := by
  rw [Pattern.new, h, Option.map_some, hp]

/-- In a pattern `*` is the wildcard, also in the place of an operator. -/
theorem pattern_square {f : String} (h : Pattern.ofAtom f = .lit f) :
    Pattern.ofSexp (.list [.atom "*", .list [.atom f, .atom "?x"], .list [.atom f, .atom "?x"]]) =
      .list [.wild, .list [.lit f, .var "?x"], .list [.lit f, .var "?x"]] := by
  have h1 : Pattern.ofAtom "*" = .wild := rfl
  have h2 : Pattern.ofAtom "?x" = .var "?x" := rfl
  simp only [Pattern.ofSexp, Pattern.ofSexpL, h, h1, h2]

theorem sem_terms {l : List String} {ts : List Sexp} (h : (l.map String.toList).mapM Sexp.parse = some ts)
    (hn : ∀ t ∈ ts, NoEmpty t) {P : Sexp → Prop} (hP : ∀ t, t ∈ ts ↔ P t) : ∃ w, Workload.new l = some w ∧ Sem w P :=
  ⟨_, new_of_parse h, (Sem.set hn).cast hP⟩

theorem langBase_sem : ∃ w, Workload.new ["v", "(uop v)", "(bop v v)"] = some w ∧
    Sem w fun t => IsWord ["v"] t ∨ Unary ["uop"] (IsWord ["v"]) t ∨ Binary ["bop"] (IsWord ["v"]) (IsWord ["v"]) t :=
  ⟨.set [.atom "v", .list [.atom "uop", .atom "v"], .list [.atom "bop", .atom "v", .atom "v"]],
    new_of_parse (by decide +kernel), (Sem.set (by simp [NoEmpty.list_iff, NoEmpty.atom])).cast fun t => by simp [IsWord, Unary, Binary]⟩

theorem upperBase_sem : ∃ w, Workload.new ["(uop v)", "(bop v v)"] = some w ∧
    Sem w fun t => Unary ["uop"] (IsWord ["v"]) t ∨ Binary ["bop"] (IsWord ["v"]) (IsWord ["v"]) t :=
  ⟨.set [.list [.atom "uop", .atom "v"], .list [.atom "bop", .atom "v", .atom "v"]],
    new_of_parse (by decide +kernel), (Sem.set (by simp [NoEmpty.list_iff, NoEmpty.atom])).cast fun t => by simp [IsWord, Unary, Binary]⟩

theorem twice_contains (f : String) (t : Sexp) :
    Filter.containsTest (.list [.lit f, .list [.lit f, .var "?a"]]) t = true ↔ Has (Twice f) t := by
  refine contains_has (fun s => ?_) t
  simp only [instance_unary, instance_var, Twice, Unary, List.mem_singleton, exists_eq_left, true_and]
  constructor
  · rintro ⟨σ, x, rfl, y, rfl, rfl⟩; exact ⟨_, ⟨_, rfl⟩, rfl⟩
  · rintro ⟨x, ⟨y, rfl⟩, rfl⟩; exact ⟨fun _ => y, _, rfl, _, rfl, rfl⟩

theorem expFilter_sem {w : Workload} {P : Sexp → Prop} (h : Sem w P) : ∃ w', expFilter w = some w' ∧
    Sem w' fun t => P t ∧ ¬ Has (Twice "exp") t ∧ ¬ Has (Twice "log") t := by
  have e1 : Filter.containsNot "(exp (exp ?a))" = some (.invert (.contains (.list [.lit "exp", .list [.lit "exp", .var "?a"]]))) := by
    rw [Filter.containsNot, pattern_of_parse (t := .list [.atom "exp", .list [.atom "exp", .atom "?a"]]) (by decide +kernel) rfl]
    rfl
  have e2 : Filter.containsNot "(log (log ?a))" = some (.invert (.contains (.list [.lit "log", .list [.lit "log", .var "?a"]]))) := by
    rw [Filter.containsNot, pattern_of_parse (t := .list [.atom "log", .list [.atom "log", .atom "?a"]]) (by decide +kernel) rfl]
    rfl
  refine ⟨_, by simp only [expFilter, e1, e2, Option.bind_eq_bind, Option.bind_some]; rfl, ?_⟩
  refine ((h.filter (Q := fun t => ¬ Has (Twice "exp") t) fun t => ?_).filter
    (Q := fun t => ¬ Has (Twice "log") t) fun t => ?_).cast fun t => and_assoc
  all_goals simp only [Filter.testT, Bool.not_eq_true', ← Bool.not_eq_true, twice_contains]

theorem expLayer_sem {uop : String} {lower ops : List String} (h1 : Plain uop) (h2 : ∀ o ∈ lower, Plain o)
    (h3 : ∀ o ∈ ops, Plain o) (h4 : "bop" ∉ [uop]) (h5 : "bup" ∉ [uop]) (h6 : "uop" ∉ [uop]) :
    ∃ w, expLayer "bup" uop lower ops = some w ∧ Sem w fun t =>
      (Unary [uop] (OneOp [uop] ops ["a", "b", "c"]) t ∨
        Binary ops (OneOp [uop] ops ["a", "b", "c"]) (OneOp [uop] ops ["a", "b", "c"]) t) ∧
      ¬ Has (Twice "exp") t ∧ ¬ Has (Twice "log") t := by
  obtain ⟨b, hb, sb⟩ := langBase_sem
  obtain ⟨u, hu, su⟩ := upperBase_sem
  obtain ⟨v, hv, sv⟩ := sem_words (l := ["a", "b", "c"]) (by decide +kernel)
  obtain ⟨f, hf, sf⟩ := sem_words (l := [uop]) (by simpa using h1)
  obtain ⟨lo, hlo, slo⟩ := sem_words h2
  obtain ⟨up, hup, sup⟩ := sem_words h3
  have s := ((su.plug (n := "v") (((sb.plug (n := "v") sv (by decide)).plug (n := "uop") sf (by decide)).plug (n := "bup")
    slo (by decide)) (by decide)).plug (n := "uop") sf (by decide)).plug (n := "bop") sup (by decide)
  obtain ⟨w, hw, sw⟩ := expFilter_sem s
  refine ⟨w, ?_, sw.cast fun t => ?_⟩
  · simp only [expLayer, Workload.plugNew, hb, hu, hv, hf, hlo, hup, Option.bind_eq_bind, Option.bind_some, Option.map_some, hw]
  · refine and_congr_left fun _ => ?_
    fill_simp
    rfl

theorem expLang_sem {vars uops bops : List String} (h1 : ∀ o ∈ vars, Plain o) (h2 : ∀ o ∈ uops, Plain o)
    (h3 : ∀ o ∈ bops, Plain o) (h4 : "bop" ∉ uops) (h5 : "bup" ∉ uops) (h6 : "uop" ∉ uops) (h7 : "bop" ∉ vars)
    (h8 : "bup" ∉ vars) (h9 : "uop" ∉ vars) :
    ∃ w, expLang vars uops bops = some w ∧ Sem w fun t => OneOp uops bops vars t ∨ Unary uops (OneOp uops bops vars) t ∨
      Binary bops (OneOp uops bops vars) (OneOp uops bops vars) t := by
  obtain ⟨b, hb, sb⟩ := langBase_sem
  obtain ⟨v, hv, sv⟩ := sem_words h1
  obtain ⟨f, hf, sf⟩ := sem_words h2
  obtain ⟨o, ho, so⟩ := sem_words h3
  have sl := ((sb.plug (n := "v") sv (by decide)).plug (n := "uop") sf (by decide)).plug (n := "bup") so (by decide)
  have sa := Sem.append (.cons sl (.cons sv .nil))
  have s := ((sb.plug (n := "v") sa (by decide)).plug (n := "uop") sf (by decide)).plug (n := "bop") so (by decide)
  refine ⟨_, ?_, s.cast fun t => ?_⟩
  · simp only [expLang, hb, hv, hf, ho, Option.bind_eq_bind, Option.bind_some]
    rfl
  · simp only [List.mem_cons, List.not_mem_nil, or_false, exists_eq_or_imp, exists_eq_left]
    fill_simp
    have e : (fun t => (IsWord vars t ∨ Unary uops (IsWord vars) t ∨ Binary bops (IsWord vars) (IsWord vars) t) ∨
      IsWord vars t) = OneOp uops bops vars := by
      funext t
      simp only [OneOp, eq_iff_iff]
      tauto
    rw [e]
    have e' : ((IsWord vars t ∨ Unary uops (IsWord vars) t ∨ Binary bops (IsWord vars) (IsWord vars) t) ∨
      IsWord vars t) ↔ OneOp uops bops vars t := by
      simp only [OneOp]; tauto
    rw [e']

/-- **C66.** The workloads of the exponential recipe list exactly: seven applications to constants; `exp` and `+`, `*` on arguments that
have at most one of these operators; likewise `log` and `+` (without the products that were meant, see `C66_log`); all terms of
at most two layers of `exp`, `log`, `sqrt`, `cbrt`, `+`, `*`, and then also `pow`; in all of these no `(exp (exp x))` and no
`(log (log x))`; and the canonical terms of at most two layers of `sqrt`, `cbrt` and `/` over two variables. -/
theorem C66_exp_exact :
    let exact := fun (uops bops vars : List String) (t : Sexp) => OneOp uops bops vars t ∨ Unary uops (OneOp uops bops vars) t ∨
      Binary bops (OneOp uops bops vars) (OneOp uops bops vars) t
    let flat := fun t => ¬ Has (Twice "exp") t ∧ ¬ Has (Twice "log") t
    let abc := ["a", "b", "c"]
    ListsAll expWorkloads [
      fun t => Unary ["exp"] (IsWord ["0", "1"]) t ∨ Unary ["log", "sqrt", "cbrt"] (IsWord ["1"]) t ∨
        Binary ["pow"] (IsWord ["a"]) (IsWord ["1"]) t ∨ Binary ["pow"] (IsWord ["1"]) (IsWord ["a"]) t,
      fun t => (Unary ["exp"] (OneOp ["exp"] ["+", "*"] abc) t ∨
        Binary ["+", "*"] (OneOp ["exp"] ["+", "*"] abc) (OneOp ["exp"] ["+", "*"] abc) t) ∧ flat t,
      fun t => (Unary ["log"] (OneOp ["log"] ["+"] abc) t ∨
        Binary ["+"] (OneOp ["log"] ["+"] abc) (OneOp ["log"] ["+"] abc) t) ∧ flat t,
      fun t => exact ["exp", "log", "sqrt", "cbrt"] ["+", "*"] abc t ∧ flat t,
      fun t => exact ["exp", "log", "sqrt", "cbrt"] ["+", "*", "pow"] abc t ∧ flat t,
      fun t => exact ["sqrt", "cbrt"] ["/"] ["a", "b"] t ∧ t.canon ["a", "b"] = some t] := by
  intro exact flat abc
  obtain ⟨w0, e0, s0⟩ : ∃ w, expConstants = some w ∧ Sem w fun t => Unary ["exp"] (IsWord ["0", "1"]) t ∨
      Unary ["log", "sqrt", "cbrt"] (IsWord ["1"]) t ∨
        Binary ["pow"] (IsWord ["a"]) (IsWord ["1"]) t ∨ Binary ["pow"] (IsWord ["1"]) (IsWord ["a"]) t := by
    refine ⟨.set [.list [.atom "exp", .atom "0"], .list [.atom "exp", .atom "1"], .list [.atom "log", .atom "1"],
      .list [.atom "sqrt", .atom "1"], .list [.atom "cbrt", .atom "1"], .list [.atom "pow", .atom "a", .atom "1"],
      .list [.atom "pow", .atom "1", .atom "a"]], new_of_parse (by decide +kernel),
      (Sem.set (by simp [NoEmpty.list_iff, NoEmpty.atom])).cast fun t => ?_⟩
    simp [IsWord, Unary, Binary]
    tauto
  obtain ⟨w1, e1, s1⟩ := expLayer_sem (uop := "exp") (lower := ["+", "*"]) (ops := ["+", "*"]) (by decide +kernel)
    (by decide +kernel) (by decide +kernel) (by decide) (by decide) (by decide)
  obtain ⟨w2, e2, s2⟩ := expLayer_sem (uop := "log") (lower := ["*"]) (ops := ["+"]) (by decide +kernel)
    (by decide +kernel) (by decide +kernel) (by decide) (by decide) (by decide)
  obtain ⟨w3, e3, s3⟩ := expLang_sem (vars := abc) (uops := ["exp", "log", "sqrt", "cbrt"]) (bops := ["+", "*"]) (by decide +kernel)
    (by decide +kernel) (by decide +kernel) (by decide) (by decide) (by decide) (by decide) (by decide) (by decide)
  obtain ⟨w4, e4, s4⟩ := expLang_sem (vars := abc) (uops := ["exp", "log", "sqrt", "cbrt"]) (bops := ["+", "*", "pow"])
    (by decide +kernel)
    (by decide +kernel) (by decide +kernel) (by decide) (by decide) (by decide) (by decide) (by decide) (by decide)
  obtain ⟨w5, e5, s5⟩ := expLang_sem (vars := ["a", "b"]) (uops := ["sqrt", "cbrt"]) (bops := ["/"])
    (by decide +kernel)
    (by decide +kernel) (by decide +kernel) (by decide) (by decide) (by decide) (by decide) (by decide) (by decide)
  obtain ⟨w3', e3', s3'⟩ := expFilter_sem s3
  obtain ⟨w4', e4', s4'⟩ := expFilter_sem s4
  have s5' := s5.filter (f := .canon ["a", "b"]) (Q := fun t => t.canon ["a", "b"] = some t) fun t => by
    simp only [Filter.testT, decide_eq_true_eq]
  refine ⟨[w0, w1, w2, w3', w4', w5.addFilter (.canon ["a", "b"])], ?_, .cons s0.lists (.cons s1.lists (.cons s2.lists
    (.cons s3'.lists (.cons s4'.lists (.cons s5'.lists .nil)))))⟩
  simp only [expWorkloads, logLayer, e0, e1, e2, e5, Option.bind_eq_bind, Option.bind_some]
  rw [show expLang ["a", "b", "c"] ["exp", "log", "sqrt", "cbrt"] ["+", "*"] = some w3 from e3,
    show expLang ["a", "b", "c"] ["exp", "log", "sqrt", "cbrt"] ["+", "*", "pow"] = some w4 from e4]
  simp only [Option.bind_some, e3', e4']
  rfl

/-! ## Trigonometry -/

theorem has_singleton {t : Sexp} (p : Pattern) {P : Sexp → Prop} (h : ∀ s, (∃ σ, Instance σ p s) ↔ P s) :
    (Filter.invert (.contains p)).testT t = true ↔ ¬ Has P t := by
  simp only [Filter.testT, Bool.not_eq_true', ← Bool.not_eq_true, contains_has h]

theorem has_or {P Q : Sexp → Prop} {t : Sexp} : Has (fun t => P t ∨ Q t) t ↔ Has P t ∨ Has Q t := by
  simp only [Has, and_or_left, exists_or]

/-- **C66.** The first three workloads of the trigonometric recipe list exactly: the three functions of angles, without `(tan (/ PI 2))`;
these, the functions of simple arguments and their negations; and these without double angles, with the sums and
differences of squares of functions of two variables. -/
theorem C66_trig_exact1 :
    let sqr := Unary ["sqr"] (Unary ["sin", "cos", "tan"] (IsWord ["a", "b"]))
    ListsAll trigWorkloads1 [
      fun t => Unary ["sin", "cos", "tan"] TrigConstant t ∧
        ¬ Has (Unary ["tan"] (Binary ["/"] (IsWord ["PI"]) (IsWord ["2"]))) t,
      TrigSimple,
      fun t => (TrigSimple t ∧ ¬ Has (Unary ["sin", "cos", "tan"] fun u => ∃ x, u = .list [.atom "+", x, x]) t) ∨
        Binary ["+", "-"] sqr sqr t] := by
  intro sqr
  obtain ⟨f, hf, sf⟩ := sem_words (l := ["sin", "cos", "tan"]) (by decide +kernel)
  obtain ⟨ab, hab, sab⟩ := sem_words (l := ["a", "b"]) (by decide +kernel)
  obtain ⟨c, hc, sc⟩ := sem_terms (l := ["0", "(/ PI 6)", "(/ PI 4)", "(/ PI 3)", "(/ PI 2)", "PI", "(* PI 2)"])
    (ts := [.atom "0", .list [.atom "/", .atom "PI", .atom "6"], .list [.atom "/", .atom "PI", .atom "4"],
      .list [.atom "/", .atom "PI", .atom "3"], .list [.atom "/", .atom "PI", .atom "2"], .atom "PI",
      .list [.atom "*", .atom "PI", .atom "2"]]) (by decide +kernel) (by simp [NoEmpty.list_iff, NoEmpty.atom]) (P := TrigConstant)
    fun t => by simp [TrigConstant, IsWord, Binary]; tauto
  obtain ⟨app, happ, sapp⟩ := sem_terms (l := ["(op v)"]) (ts := [.list [.atom "op", .atom "v"]]) (by decide +kernel)
    (by simp [NoEmpty.list_iff, NoEmpty.atom]) (P := Unary ["op"] (IsWord ["v"])) fun t => by simp [Unary, IsWord]
  obtain ⟨x, hx, sx⟩ := sem_terms (l := ["a", "(~ a)", "(+ PI a)", "(- PI a)", "(+ a a)"])
    (ts := [.atom "a", .list [.atom "~", .atom "a"], .list [.atom "+", .atom "PI", .atom "a"],
      .list [.atom "-", .atom "PI", .atom "a"], .list [.atom "+", .atom "a", .atom "a"]]) (by decide +kernel)
    (by simp [NoEmpty.list_iff, NoEmpty.atom]) (P := TrigArg) fun t => by simp [TrigArg, IsWord, Unary, Binary]; tauto
  obtain ⟨ng, hng, sng⟩ := sem_terms (l := ["(~ x)"]) (ts := [.list [.atom "~", .atom "x"]]) (by decide +kernel)
    (by simp [NoEmpty.list_iff, NoEmpty.atom]) (P := Unary ["~"] (IsWord ["x"])) fun t => by simp [Unary, IsWord]
  obtain ⟨sq, hsq, ssq⟩ := sem_terms (l := ["(sqr x)"]) (ts := [.list [.atom "sqr", .atom "x"]]) (by decide +kernel)
    (by simp [NoEmpty.list_iff, NoEmpty.atom]) (P := Unary ["sqr"] (IsWord ["x"])) fun t => by simp [Unary, IsWord]
  obtain ⟨ad, had, sad⟩ := sem_terms (l := ["(+ e e)", "(- e e)"]) (ts := [.list [.atom "+", .atom "e", .atom "e"],
    .list [.atom "-", .atom "e", .atom "e"]]) (by decide +kernel)
    (by simp [NoEmpty.list_iff, NoEmpty.atom]) (P := Binary ["+", "-"] (IsWord ["e"]) (IsWord ["e"])) fun t => by
      simp [Binary, IsWord]
  have k1 : Filter.containsNone ["(sin (+ ?a ?a))", "(cos (+ ?a ?a))", "(tan (+ ?a ?a))"] = some (.invert (.or [
    .contains (.list [.lit "sin", .list [.lit "+", .var "?a", .var "?a"]]),
    .contains (.list [.lit "cos", .list [.lit "+", .var "?a", .var "?a"]]),
    .contains (.list [.lit "tan", .list [.lit "+", .var "?a", .var "?a"]])])) := by
    rw [Filter.containsNone, List.mapM_cons, List.mapM_cons, List.mapM_cons,
      pattern_of_parse (t := .list [.atom "sin", .list [.atom "+", .atom "?a", .atom "?a"]]) (by decide +kernel) rfl,
      pattern_of_parse (t := .list [.atom "cos", .list [.atom "+", .atom "?a", .atom "?a"]]) (by decide +kernel) rfl,
      pattern_of_parse (t := .list [.atom "tan", .list [.atom "+", .atom "?a", .atom "?a"]]) (by decide +kernel) rfl]
    rfl
  have k2 : Filter.containsNot "(tan (/ PI 2))" = some (.invert (.contains (.list [.lit "tan", .list [.lit "/", .lit "PI", .lit "2"]])))
    := by
    rw [Filter.containsNot, pattern_of_parse (t := .list [.atom "tan", .list [.atom "/", .atom "PI", .atom "2"]])
      (by decide +kernel) rfl]
    rfl
  have q1 := ((sapp.plug (n := "op") sf (by decide)).plug (n := "v") sc (by decide)).filter
    (f := .invert (.contains (.list [.lit "tan", .list [.lit "/", .lit "PI", .lit "2"]])))
    (Q := fun t => ¬ Has (Unary ["tan"] (Binary ["/"] (IsWord ["PI"]) (IsWord ["2"]))) t) fun t => has_singleton _ fun s => by
      simp [instance_unary, instance_ternary, instance_lit, Unary, Binary, IsWord, exists_const_iff]
      exact fun _ => ⟨.atom ""⟩
  have q2 := (sapp.plug (n := "op") sf (by decide)).plug (n := "v") sx (by decide)
  have q3 := sng.plug (n := "x") q2 (by decide)
  have q4 := ((ssq.plug (n := "x") sapp (by decide)).plug (n := "op") sf (by decide)).plug (n := "v") sab (by decide)
  have q5 := sad.plug (n := "e") q4 (by decide)
  have q6 := Sem.append (.cons q1 (.cons q2 (.cons q3 .nil)))
  have q6' := q6.cast (Q := TrigSimple) fun t => by
    simp only [List.mem_cons, List.not_mem_nil, or_false, exists_eq_or_imp, exists_eq_left]
    fill_simp
    rfl
  have q7 := q6'.filter (f := .invert (.or [
    .contains (.list [.lit "sin", .list [.lit "+", .var "?a", .var "?a"]]),
    .contains (.list [.lit "cos", .list [.lit "+", .var "?a", .var "?a"]]),
    .contains (.list [.lit "tan", .list [.lit "+", .var "?a", .var "?a"]])]))
    (Q := fun t => ¬ Has (Unary ["sin", "cos", "tan"] fun u => ∃ x, u = .list [.atom "+", x, x]) t) fun t => by
      have h : ∀ f, ∀ t, Filter.containsTest (.list [.lit f, .list [.lit "+", .var "?a", .var "?a"]]) t = true ↔
          Has (Unary [f] fun u => ∃ x, u = .list [.atom "+", x, x]) t := fun f t => contains_has (fun s => by
        simp only [instance_unary, instance_ternary, instance_lit, instance_var, Unary, List.mem_singleton, exists_eq_left]
        constructor
        · rintro ⟨σ, x, rfl, _, _, _, rfl, rfl, rfl, rfl⟩; exact ⟨_, ⟨_, rfl⟩, rfl⟩
        · rintro ⟨x, ⟨y, rfl⟩, rfl⟩; exact ⟨fun _ => y, _, rfl, _, _, _, rfl, rfl, rfl, rfl⟩) t
      simp only [Filter.testT, Filter.testTAny, Bool.not_eq_true', ← Bool.not_eq_true, Bool.or_eq_true, h, Bool.or_false]
      rw [← has_or, ← has_or]
      have e : (fun t => Unary ["sin"] (fun u => ∃ x, u = .list [.atom "+", x, x]) t ∨
        Unary ["cos"] (fun u => ∃ x, u = .list [.atom "+", x, x]) t ∨ Unary ["tan"] (fun u => ∃ x, u = .list [.atom "+", x, x]) t) =
        Unary ["sin", "cos", "tan"] fun u => ∃ x, u = .list [.atom "+", x, x] := by
        funext t
        simp only [Unary, List.mem_cons, List.not_mem_nil, or_false, exists_eq_or_imp, exists_eq_left]
      rw [e]
  have q8 := Sem.append (.cons q7 (.cons q5 .nil))
  refine ⟨[_, _, _], ?_, .cons (q1.cast fun t => ?_).lists (.cons q6'.lists (.cons (q8.cast fun t => ?_).lists .nil))⟩
  · simp only [trigWorkloads1, Workload.plugNew, hf, hab, hc, happ, hx, hng, hsq, had, k1, k2, Option.bind_eq_bind,
      Option.bind_some, Option.map_some]
    rfl
  · fill_simp
  · simp only [List.mem_cons, List.not_mem_nil, or_false, exists_eq_or_imp, exists_eq_left]
    fill_simp
    rfl

theorem contains_sum (t : Sexp) : Filter.containsTest (.list [.lit "+", .var "?x", .var "?x"]) t = true ↔
    Has (fun u => ∃ x, u = .list [.atom "+", x, x]) t := contains_has (fun s => by
  simp only [instance_ternary, instance_lit, instance_var]
  constructor
  · rintro ⟨σ, _, _, _, rfl, rfl, rfl, rfl⟩; exact ⟨_, rfl⟩
  · rintro ⟨y, rfl⟩; exact ⟨fun _ => y, _, _, _, rfl, rfl, rfl, rfl⟩) t

theorem contains_square (f : String) (t : Sexp) :
    Filter.containsTest (.list [.wild, .list [.lit f, .var "?x"], .list [.lit f, .var "?x"]]) t = true ↔
    Has (fun u => ∃ o x, u = .list [o, .list [.atom f, x], .list [.atom f, x]]) t := contains_has (fun s => by
  simp only [instance_unary, instance_ternary, instance_lit, instance_var, instance_wild]
  constructor
  · rintro ⟨σ, _, _, _, rfl, _, ⟨_, rfl, rfl⟩, _, rfl, rfl⟩; exact ⟨_, _, rfl⟩
  · rintro ⟨o, y, rfl⟩; exact ⟨fun _ => y, _, _, _, rfl, trivial, ⟨_, rfl, rfl⟩, _, rfl, rfl⟩) t

theorem trigTwo_square {t o v : Sexp} (h : TrigTwo t) {l : List Sexp} : ¬ Subterm (.list [o, .list l, v]) t := by
  obtain ⟨f, _, x, hx, rfl⟩ := h
  intro hs
  rcases hx with ⟨w, hw, rfl⟩ | ⟨o', ho', y, z, ⟨w, hw, rfl⟩, ⟨w', hw', rfl⟩, rfl⟩ <;>
    simp [Subterm.list_iff, Subterm.atom_iff] at hs

/-- Among products of functions of two variables the filter on squares leaves those of different factors. -/
theorem product_square (t : Sexp) : Binary ["*"] TrigTwo TrigTwo t ∧
    ¬ Has (fun u => ∃ f ∈ ["sin", "cos"], ∃ o x, u = .list [o, .list [.atom f, x], .list [.atom f, x]]) t ↔ TrigProduct t := by
  constructor
  · rintro ⟨⟨o, ho, l, r, hl, hr, rfl⟩, hn⟩
    obtain rfl := List.mem_singleton.1 ho
    refine ⟨l, r, hl, hr, ?_, rfl⟩
    rintro rfl
    obtain ⟨f, hf, x, _, rfl⟩ := hl
    exact hn ⟨_, .refl _, f, hf, _, x, rfl⟩
  · rintro ⟨l, r, hl, hr, hne, rfl⟩
    refine ⟨⟨_, List.mem_singleton_self _, l, r, hl, hr, rfl⟩, ?_⟩
    rintro ⟨s, hs, f, hf, o, x, rfl⟩
    rw [Subterm.list_iff] at hs
    rcases hs with e | ⟨y, hy, hs⟩
    · simp only [Sexp.list.injEq, List.cons.injEq, and_true] at e
      exact hne (e.2.1.symm.trans e.2.2)
    · simp only [List.mem_cons, List.not_mem_nil, or_false] at hy
      rcases hy with rfl | rfl | rfl
      · cases hs
      · exact trigTwo_square hl hs
      · exact trigTwo_square hr hs

theorem contains_binaryArg (f : String) (t : Sexp) :
    Filter.containsTest (.list [.lit f, .list [.var "?op", .var "?a", .var "?b"]]) t = true ↔
    Has (Unary [f] fun u => ∃ o x y, u = .list [o, x, y]) t := contains_has (fun s => by
  simp only [instance_unary, instance_ternary, instance_lit, instance_var, Unary, List.mem_singleton, exists_eq_left]
  constructor
  · rintro ⟨σ, _, rfl, _, _, _, rfl, rfl, rfl, rfl⟩; exact ⟨_, ⟨_, _, _, rfl⟩, rfl⟩
  · rintro ⟨_, ⟨o, x, y, rfl⟩, rfl⟩
    exact ⟨fun v => if v = "?op" then o else if v = "?a" then x else y, _, rfl, _, _, _, rfl, by simp, by simp, by simp⟩) t

theorem contains_difference (f : String) (t : Sexp) :
    Filter.containsTest (.list [.lit f, .list [.lit "-", .var "?a", .var "?b"]]) t = true ↔
    Has (Unary [f] fun u => ∃ x y, u = .list [.atom "-", x, y]) t := contains_has (fun s => by
  simp only [instance_unary, instance_ternary, instance_lit, instance_var, Unary, List.mem_singleton, exists_eq_left]
  constructor
  · rintro ⟨σ, _, rfl, _, _, _, rfl, rfl, rfl, rfl⟩; exact ⟨_, ⟨_, _, rfl⟩, rfl⟩
  · rintro ⟨_, ⟨x, y, rfl⟩, rfl⟩
    exact ⟨fun v => if v = "?a" then x else y, _, rfl, _, _, _, rfl, rfl, by simp, by simp⟩) t

theorem has_unary_pair {P : Sexp → Prop} {f g : String} {t : Sexp} :
    Has (Unary [f] P) t ∨ Has (Unary [g] P) t ↔ Has (Unary [f, g] P) t := by
  rw [← has_or]
  have e : (fun t => Unary [f] P t ∨ Unary [g] P t) = Unary [f, g] P := by
    funext t
    simp only [Unary, List.mem_cons, List.not_mem_nil, or_false, exists_eq_or_imp, exists_eq_left]
  rw [e]

theorem containsNone_pair {a b : String} {p q : Pattern} (ha : Pattern.new a = some p) (hb : Pattern.new b = some q) :
    Filter.containsNone [a, b] = some (.invert (.or [.contains p, .contains q])) := by
  simp [Filter.containsNone, ha, hb]

/-- **C66.** The last four workloads of the trigonometric recipe list exactly, besides five constants: sines and cosines of one variable,
doubled or shifted by a right angle; these, also added to or subtracted from one, and squares, and halves of all of them;
sums, differences and products of sines and cosines of two variables, without squares, and their halves; and
sines and cosines of two variables and their sum, with sums and differences of such products without sums of the same product and
without functions of sums. -/
theorem C66_trig_exact2 :
    let consts := IsWord ["-2", "-1", "0", "1", "2"]
    ListsAll trigWorkloads2 [
      fun t => TrigShift t ∨ consts t,
      fun t => OrHalf (fun t => (TrigShift t ∨ Binary ["+", "-"] (IsWord ["1"]) TrigShift t) ∨
        Unary ["sqr"] (Unary ["sin", "cos"] (IsWord ["a"])) t) t ∨ consts t,
      fun t => OrHalf (fun t => Binary ["+", "-"] TrigTwo TrigTwo t ∨ TrigProduct t) t ∨ consts t,
      fun t => (TrigTwo t ∧ ¬ Has (Unary ["sin", "cos"] fun u => ∃ x y, u = .list [.atom "-", x, y]) t) ∨
        (Binary ["+", "-"] TrigProduct TrigProduct t ∧ ¬ Has (fun u => ∃ x, u = .list [.atom "+", x, x]) t ∧
          ¬ Has (Unary ["sin", "cos"] fun u => ∃ o x y, u = .list [o, x, y]) t) ∨ consts t] := by
  intro consts
  obtain ⟨f, hf, sf⟩ := sem_words (l := ["sin", "cos"]) (by decide +kernel)
  obtain ⟨a, ha, sa⟩ := sem_words (l := ["a"]) (by decide +kernel)
  obtain ⟨c, hc, sc⟩ := sem_words (l := ["-2", "-1", "0", "1", "2"]) (by decide +kernel)
  obtain ⟨app, happ, sapp⟩ := sem_terms (l := ["(op v)"]) (ts := [.list [.atom "op", .atom "v"]]) (by decide +kernel)
    (by simp [NoEmpty.list_iff, NoEmpty.atom]) (P := Unary ["op"] (IsWord ["v"])) fun t => by simp [Unary, IsWord]
  obtain ⟨sq, hsq, ssq⟩ := sem_terms (l := ["(sqr x)"]) (ts := [.list [.atom "sqr", .atom "x"]]) (by decide +kernel)
    (by simp [NoEmpty.list_iff, NoEmpty.atom]) (P := Unary ["sqr"] (IsWord ["x"])) fun t => by simp [Unary, IsWord]
  obtain ⟨sh, hsh, ssh⟩ := sem_terms (l := ["x", "(- 1 x)", "(+ 1 x)"]) (ts := [.atom "x", .list [.atom "-", .atom "1", .atom "x"],
    .list [.atom "+", .atom "1", .atom "x"]]) (by decide +kernel) (by simp [NoEmpty.list_iff, NoEmpty.atom])
    (P := fun t => IsWord ["x"] t ∨ Binary ["+", "-"] (IsWord ["1"]) (IsWord ["x"]) t) fun t => by simp [Binary, IsWord]; tauto
  obtain ⟨sd, hsd, ssd⟩ := sem_terms (l := ["x", "(/ x 2)"]) (ts := [.atom "x", .list [.atom "/", .atom "x", .atom "2"]])
    (by decide +kernel) (by simp [NoEmpty.list_iff, NoEmpty.atom])
    (P := fun t => IsWord ["x"] t ∨ Binary ["/"] (IsWord ["x"]) (IsWord ["2"]) t) fun t => by simp [Binary, IsWord]
  obtain ⟨g, hg, sg⟩ := sem_terms (l := ["a", "(- (/ PI 2) a)", "(+ (/ PI 2) a)", "(* 2 a)"]) (ts := [.atom "a",
    .list [.atom "-", .list [.atom "/", .atom "PI", .atom "2"], .atom "a"],
    .list [.atom "+", .list [.atom "/", .atom "PI", .atom "2"], .atom "a"], .list [.atom "*", .atom "2", .atom "a"]])
    (by decide +kernel) (by simp [NoEmpty.list_iff, NoEmpty.atom])
    (P := fun x => IsWord ["a"] x ∨ Binary ["+", "-"] (Binary ["/"] (IsWord ["PI"]) (IsWord ["2"])) (IsWord ["a"]) x ∨
      Binary ["*"] (IsWord ["2"]) (IsWord ["a"]) x) fun t => by simp [Binary, IsWord]; tauto
  obtain ⟨h, hh, shh⟩ := sem_terms (l := ["a", "b", "(+ a b)", "(- a b)"]) (ts := [.atom "a", .atom "b",
    .list [.atom "+", .atom "a", .atom "b"], .list [.atom "-", .atom "a", .atom "b"]])
    (by decide +kernel) (by simp [NoEmpty.list_iff, NoEmpty.atom])
    (P := fun x => IsWord ["a", "b"] x ∨ Binary ["+", "-"] (IsWord ["a"]) (IsWord ["b"]) x) fun t => by
      simp [Binary, IsWord]; tauto
  obtain ⟨ad, had, sad⟩ := sem_terms (l := ["(+ x y)", "(- x y)"]) (ts := [.list [.atom "+", .atom "x", .atom "y"],
    .list [.atom "-", .atom "x", .atom "y"]]) (by decide +kernel)
    (by simp [NoEmpty.list_iff, NoEmpty.atom]) (P := Binary ["+", "-"] (IsWord ["x"]) (IsWord ["y"])) fun t => by
      simp [Binary, IsWord]
  obtain ⟨mu, hmu, smu⟩ := sem_terms (l := ["(* x y)"]) (ts := [.list [.atom "*", .atom "x", .atom "y"]]) (by decide +kernel)
    (by simp [NoEmpty.list_iff, NoEmpty.atom]) (P := Binary ["*"] (IsWord ["x"]) (IsWord ["y"])) fun t => by
      simp [Binary, IsWord]
  have k1 : Filter.containsNone ["(* (cos ?x) (cos ?x))", "(* (sin ?x) (sin ?x))"] = some (.invert (.or [
    .contains (.list [.wild, .list [.lit "cos", .var "?x"], .list [.lit "cos", .var "?x"]]),
    .contains (.list [.wild, .list [.lit "sin", .var "?x"], .list [.lit "sin", .var "?x"]])])) :=
    containsNone_pair (pattern_of_parse (t := .list [.atom "*", .list [.atom "cos", .atom "?x"], .list [.atom "cos", .atom "?x"]])
        (by decide +kernel) (pattern_square rfl))
      (pattern_of_parse (t := .list [.atom "*", .list [.atom "sin", .atom "?x"], .list [.atom "sin", .atom "?x"]])
        (by decide +kernel) (pattern_square rfl))
  have k2 : Filter.containsNot "(+ ?x ?x)" = some (.invert (.contains (.list [.lit "+", .var "?x", .var "?x"]))) := by
    rw [Filter.containsNot, pattern_of_parse (t := .list [.atom "+", .atom "?x", .atom "?x"]) (by decide +kernel) rfl]
    rfl
  have k3 : Filter.containsNone ["(cos (?op ?a ?b))", "(sin (?op ?a ?b))"] = some (.invert (.or [
    .contains (.list [.lit "cos", .list [.var "?op", .var "?a", .var "?b"]]),
    .contains (.list [.lit "sin", .list [.var "?op", .var "?a", .var "?b"]])])) :=
    containsNone_pair (pattern_of_parse (t := .list [.atom "cos", .list [.atom "?op", .atom "?a", .atom "?b"]]) (by decide +kernel) rfl)
      (pattern_of_parse (t := .list [.atom "sin", .list [.atom "?op", .atom "?a", .atom "?b"]]) (by decide +kernel) rfl)
  have k4 : Filter.containsNone ["(cos (- ?a ?b))", "(sin (- ?a ?b))"] = some (.invert (.or [
    .contains (.list [.lit "cos", .list [.lit "-", .var "?a", .var "?b"]]),
    .contains (.list [.lit "sin", .list [.lit "-", .var "?a", .var "?b"]])])) :=
    containsNone_pair (pattern_of_parse (t := .list [.atom "cos", .list [.atom "-", .atom "?a", .atom "?b"]]) (by decide +kernel) rfl)
      (pattern_of_parse (t := .list [.atom "sin", .list [.atom "-", .atom "?a", .atom "?b"]]) (by decide +kernel) rfl)
  have q1 := ((sapp.plug (n := "op") sf (by decide)).plug (n := "v") sg (by decide)).cast (Q := TrigShift) fun t => by
    fill_simp; rfl
  have q2 := ((ssq.plug (n := "x") sapp (by decide)).plug (n := "op") sf (by decide)).plug (n := "v") sa (by decide)
  have q3 := ((sapp.plug (n := "op") sf (by decide)).plug (n := "v") shh (by decide)).cast (Q := TrigTwo) fun t => by
    fill_simp; rfl
  have two : ∀ n ∉ ["sin", "cos", "a", "b", "+", "-"], ∀ Q, Fill n Q TrigTwo = TrigTwo := fun n hn Q => by
    simp only [List.mem_cons, List.not_mem_nil, or_false, not_or] at hn
    have h1 : n ∉ ["sin", "cos"] := by simp [hn]
    have h2 : n ∉ ["a", "b"] := by simp [hn]
    have h3 : n ∉ ["+", "-"] := by simp [hn]
    have h4 : n ∉ ["a"] := by simp [hn]
    have h5 : n ∉ ["b"] := by simp [hn]
    unfold TrigTwo
    fill_simp
  have q4 := ((sad.plug (n := "x") q3 (by decide)).plug (n := "y") q3 (by decide)).cast
    (Q := Binary ["+", "-"] TrigTwo TrigTwo) fun t => by
      fill_simp; rw [two "y" (by decide)]
  have q5 := (((smu.plug (n := "x") q3 (by decide)).plug (n := "y") q3 (by decide)).filter (f := .invert (.or [
    .contains (.list [.wild, .list [.lit "cos", .var "?x"], .list [.lit "cos", .var "?x"]]),
    .contains (.list [.wild, .list [.lit "sin", .var "?x"], .list [.lit "sin", .var "?x"]])]))
    (Q := fun t => ¬ Has (fun u => ∃ f ∈ ["sin", "cos"], ∃ o x, u = .list [o, .list [.atom f, x], .list [.atom f, x]]) t)
    fun t => by
      simp only [Filter.testT, Filter.testTAny, Bool.not_eq_true', ← Bool.not_eq_true, Bool.or_eq_true, contains_square,
        Bool.or_false, List.mem_cons, List.not_mem_nil, or_false, exists_eq_or_imp, exists_eq_left, has_or]
      rw [or_comm]).cast
    (Q := TrigProduct) fun t => by
      fill_simp; rw [two "y" (by decide), product_square]
  have prod : ∀ Q, Fill "y" Q TrigProduct = TrigProduct := fun Q =>
    fill_absent (P := Binary ["*"] TrigTwo TrigTwo) (by rw [fill_binary (by decide), two "y" (by decide)]) fun t h =>
      ((product_square t).2 h).1
  have q6 := (((sad.plug (n := "x") q5 (by decide)).plug (n := "y") q5 (by decide)).filter
    (f := .invert (.contains (.list [.lit "+", .var "?x", .var "?x"])))
    (Q := fun t => ¬ Has (fun u => ∃ x, u = .list [.atom "+", x, x]) t) fun t => by
      simp only [Filter.testT, Bool.not_eq_true', ← Bool.not_eq_true, contains_sum]).filter (f := .invert (.or [
    .contains (.list [.lit "cos", .list [.var "?op", .var "?a", .var "?b"]]),
    .contains (.list [.lit "sin", .list [.var "?op", .var "?a", .var "?b"]])]))
    (Q := fun t => ¬ Has (Unary ["sin", "cos"] fun u => ∃ o x y, u = .list [o, x, y]) t) fun t => by
      simp only [Filter.testT, Filter.testTAny, Bool.not_eq_true', ← Bool.not_eq_true, Bool.or_eq_true, contains_binaryArg,
        Bool.or_false]
      rw [or_comm, has_unary_pair]
  have q7 := ssh.plug (n := "x") q1 (by decide)
  have q8 := Sem.append (.cons q4 (.cons q5 .nil))
  have q9 := Sem.append (.cons q7 (.cons q2 .nil))
  have q10 := ssd.plug (n := "x") q9 (by decide)
  have q11 := ssd.plug (n := "x") q8 (by decide)
  have q12 := q3.filter (f := .invert (.or [
    .contains (.list [.lit "cos", .list [.lit "-", .var "?a", .var "?b"]]),
    .contains (.list [.lit "sin", .list [.lit "-", .var "?a", .var "?b"]])]))
    (Q := fun t => ¬ Has (Unary ["sin", "cos"] fun u => ∃ x y, u = .list [.atom "-", x, y]) t) fun t => by
      simp only [Filter.testT, Filter.testTAny, Bool.not_eq_true', ← Bool.not_eq_true, Bool.or_eq_true, contains_difference,
        Bool.or_false]
      rw [or_comm, has_unary_pair]
  have r1 := Sem.append (.cons q1 (.cons sc .nil))
  have r2 := Sem.append (.cons q10 (.cons sc .nil))
  have r3 := Sem.append (.cons q11 (.cons sc .nil))
  have r4 := Sem.append (.cons q12 (.cons q6 (.cons sc .nil)))
  refine ⟨[_, _, _, _], ?_, .cons (r1.cast fun t => ?_).lists (.cons (r2.cast fun t => ?_).lists
    (.cons (r3.cast fun t => ?_).lists (.cons (r4.cast fun t => ?_).lists .nil)))⟩
  · simp only [trigWorkloads2, Workload.plugNew, hf, ha, hc, happ, hsq, hsh, hsd, hg, hh, had, hmu, k1, k2, k3, k4,
      Option.bind_eq_bind, Option.bind_some, Option.map_some]
    rfl
  · simp only [List.mem_cons, List.not_mem_nil, or_false, exists_eq_or_imp, exists_eq_left]
    rfl
  · simp only [List.mem_cons, List.not_mem_nil, or_false, exists_eq_or_imp, exists_eq_left]
    fill_simp
    rfl
  · simp only [List.mem_cons, List.not_mem_nil, or_false, exists_eq_or_imp, exists_eq_left]
    fill_simp
    rfl
  · simp only [List.mem_cons, List.not_mem_nil, or_false, exists_eq_or_imp, exists_eq_left]
    fill_simp
    rw [prod, and_assoc]

/-- **C08 with `*` in the place of an operator**: the filter on `(* ?x ?x)` also rejects the sum `(+ a a)`, as `*` is the wildcard
in every position of a pattern. A filter on products cannot be written. -/
theorem C08_star_rejects_sums : ∃ p, Pattern.new "(* ?x ?x)" = some p ∧
    Filter.containsTest p (.list [.atom "+", .atom "a", .atom "a"]) = true := by
  refine ⟨.list [.wild, .var "?x", .var "?x"], pattern_of_parse (t := .list [.atom "*", .atom "?x", .atom "?x"])
    (by decide +kernel) rfl, ?_⟩
  rw [contains_has (P := fun s => ∃ o x, s = .list [o, x, x])]
  · exact ⟨_, .refl _, _, _, rfl⟩
  · intro s
    simp only [instance_ternary, instance_var, instance_wild]
    constructor
    · rintro ⟨σ, _, _, _, rfl, _, rfl, rfl⟩; exact ⟨_, _, rfl⟩
    · rintro ⟨o, y, rfl⟩; exact ⟨fun _ => y, _, _, _, rfl, trivial, rfl, rfl⟩

end Ruler
