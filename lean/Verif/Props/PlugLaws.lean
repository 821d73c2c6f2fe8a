import Verif.Proofs.PlugLaws
import Verif.Props.Workload
/-!
# Property C86: plugs into different holes do not interfere

All statements count terms with multiplicity.
-/
namespace Ruler
open Spec

/-- Forcing a plug, for both routes of `Workload::plug`. -/
theorem Workload.forceT_doPlug_any {w pegs : Workload} {name : String} (hw : AllSets NoEmpty w)
    (hn : pegs = .set [] → LiteralName name) :
    (w.doPlug name pegs).forceT = w.forceT.flatMap (Sexp.plug name pegs.forceT) := by
  unfold Workload.doPlug
  split
  · rw [Workload.forceT_addFilter, ofAtom_literal (hn rfl)]
    have h2 := (Workload.AllSets.force hw).2
    simp only [Workload.forceT]
    generalize w.forceT = l at h2
    induction l with
    | nil => rfl
    | cons t l ih =>
      have hr := ih fun s hs => h2 s (by simp [hs])
      rw [List.flatMap_cons, ← hr]
      by_cases h : Subterm (.atom name) t
      · have e : Sexp.plug name [] t = [] := by
          rw [← List.length_eq_zero_iff, Sexp.length_plug name [] t (h2 t (by simp))]
          have : 0 < holeCount name t := List.count_pos_iff.2 ((mem_occurrences).2 h)
          simp only [List.length_nil]
          exact Nat.zero_pow this
        rw [e, List.filter_cons_of_neg (by simpa [Filter.testT, containsTest_lit] using h), List.nil_append]
      · rw [Sexp.plug_not_occurs (h2 t (by simp)) h,
          List.filter_cons_of_pos (by simpa [Filter.testT, ← Bool.not_eq_true, containsTest_lit] using h)]
        rfl
  · rfl

/-- The mention of an atom by a term of the workload. -/
def Spec.Mentions (w : Workload) (name : String) : Prop := ∃ ts, w.force = some ts ∧ ∃ t ∈ ts, Subterm (.atom name) t

theorem Spec.Mentions.not {w : Workload} {name : String} (hw : AllSets NoEmpty w) (h : ¬ Mentions w name) :
    ∀ t ∈ w.forceT, ¬ Subterm (.atom name) t :=
  fun t ht hs => h ⟨_, (Workload.AllSets.force hw).1, t, ht, hs⟩

/-- **C86.** Plugging a hole that no term of the workload mentions changes nothing, not even the order. -/
theorem C86_absent (w pegs : Workload) (name : String) (hw : AllSets NoEmpty w) (hp : AllSets NoEmpty pegs)
    (hn : pegs = .set [] → LiteralName name) (h : ¬ Mentions w name) :
    ∃ ts, w.force = some ts ∧ (w.doPlug name pegs).force = some ts := by
  have h1 := Workload.AllSets.force hw
  refine ⟨_, h1.1, ?_⟩
  rw [(Workload.AllSets.force (Workload.AllSets.doPlug hw hp)).1, Workload.forceT_doPlug_any hw hn,
    Sexp.flatMap_plug_absent h1.2 (Mentions.not hw h)]

/-- **C86.** Plugs into two different holes can be exchanged if neither kind of pegs mentions the hole of the other:
the same terms arise, equally often. -/
theorem C86_commute (w p q : Workload) (m n : String) (hmn : m ≠ n) (hw : AllSets NoEmpty w) (hp : AllSets NoEmpty p)
    (hq : AllSets NoEmpty q) (hm : p = .set [] → LiteralName m) (hn : q = .set [] → LiteralName n)
    (hpn : ¬ Mentions p n) (hqm : ¬ Mentions q m) :
    ∃ rs rs', ((w.doPlug m p).doPlug n q).force = some rs ∧ ((w.doPlug n q).doPlug m p).force = some rs' ∧ rs.Perm rs' := by
  have e1 := Workload.AllSets.doPlug (name := m) hw hp
  have e2 := Workload.AllSets.doPlug (name := n) hw hq
  refine ⟨_, _, (Workload.AllSets.force (Workload.AllSets.doPlug e1 hq)).1,
    (Workload.AllSets.force (Workload.AllSets.doPlug e2 hp)).1, ?_⟩
  rw [Workload.forceT_doPlug_any e1 hn, Workload.forceT_doPlug_any e2 hm, Workload.forceT_doPlug_any hw hm, Workload.forceT_doPlug_any hw hn,
    List.flatMap_assoc, List.flatMap_assoc]
  exact List.Perm.flatMap_left _ fun t ht => Sexp.plug_comm hmn ((Workload.AllSets.force hw).2 t ht)
    (Workload.AllSets.force hp).2 (Workload.AllSets.force hq).2 (Mentions.not hp hpn) (Mentions.not hq hqm)

/-- **C86.** If the workload itself does not mention the second hole, it can be plugged in the pegs instead: the same
terms arise, equally often. (The two holes may have the same name: then nothing is asked of the workload.) -/
theorem C86_associate (w p q : Workload) (m n : String) (hw : AllSets NoEmpty w) (hp : AllSets NoEmpty p)
    (hq : AllSets NoEmpty q) (hm : p = .set [] → LiteralName m) (hn : q = .set [] → LiteralName n)
    (hwn : m ≠ n → ¬ Mentions w n) :
    ∃ rs rs', ((w.doPlug m p).doPlug n q).force = some rs ∧ (w.doPlug m (p.doPlug n q)).force = some rs' ∧
      rs.Perm rs' := by
  have e1 := Workload.AllSets.doPlug (name := m) hw hp
  have e2 := Workload.AllSets.doPlug (name := n) hp hq
  have hne : p.doPlug n q = .set [] → LiteralName m := by
    intro h
    refine absurd h ?_
    unfold Workload.doPlug
    split
    · cases p with
      | plug => simp only [Workload.addFilter]; split <;> simp
      | filter g v =>
        clear * -
        have : ∀ (v : Workload) (f : Filter), v.addFilter f ≠ .set [] := by
          intro v
          have key : ∀ k, ∀ v : Workload, sizeOf v ≤ k → ∀ f : Filter, v.addFilter f ≠ .set [] := by
            intro k
            induction k with
            | zero => intro v hv; cases v <;> simp at hv
            | succ k ih =>
              intro v hv f
              cases v with
              | plug => simp only [Workload.addFilter]; split <;> simp
              | filter g v => simp only [Workload.addFilter]; exact ih v (by simp at hv; omega) _
              | set => simp [Workload.addFilter]
              | append => simp [Workload.addFilter]
          exact key _ v (Nat.le_refl _)
        exact this _ _
      | set => simp [Workload.addFilter]
      | append => simp [Workload.addFilter]
    · simp
  refine ⟨_, _, (Workload.AllSets.force (Workload.AllSets.doPlug e1 hq)).1,
    (Workload.AllSets.force (Workload.AllSets.doPlug hw e2)).1, ?_⟩
  rw [Workload.forceT_doPlug_any e1 hn, Workload.forceT_doPlug_any hw hne, Workload.forceT_doPlug_any hw hm, Workload.forceT_doPlug_any hp hn,
    List.flatMap_assoc]
  exact List.Perm.flatMap_left _ fun t ht => Sexp.plug_assoc ((Workload.AllSets.force hw).2 t ht)
    (Workload.AllSets.force hp).2 fun h => Mentions.not hw (hwn h) t ht

/-- **C86.** Plugging the same hole again changes nothing if the pegs did not mention it. -/
theorem C86_once (w p q : Workload) (n : String) (hw : AllSets NoEmpty w) (hp : AllSets NoEmpty p)
    (hq : AllSets NoEmpty q) (hn : LiteralName n) (hpn : ¬ Mentions p n) :
    ∃ rs, (w.doPlug n p).force = some rs ∧ ((w.doPlug n p).doPlug n q).force = some rs := by
  refine C86_absent _ q n (Workload.AllSets.doPlug hw hp) hq (fun _ => hn) ?_
  rintro ⟨ts, h, t, ht, hs⟩
  obtain ⟨us, h1⟩ : ∃ us, w.force = some us := ⟨_, (Workload.AllSets.force hw).1⟩
  obtain ⟨ps, h2⟩ : ∃ ps, p.force = some ps := ⟨_, (Workload.AllSets.force hp).1⟩
  obtain ⟨u, _, hf⟩ := C04_plug_only_fills w p n us ps ts h1 h2 (fun _ => hn) h t ht
  exact Sexp.plug_removes (fun x hx hs => hpn ⟨ps, h2, x, hx, hs⟩) hf hs

/-- **C86.** Plugging distributes over appending: the same terms arise, equally often. -/
theorem C86_distribute (a b p : Workload) (n : String) (ha : AllSets NoEmpty a) (hb : AllSets NoEmpty b)
    (hp : AllSets NoEmpty p) (hn : p = .set [] → LiteralName n) :
    ∃ rs rs', ((a.doAppend b).doPlug n p).force = some rs ∧ ((a.doPlug n p).doAppend (b.doPlug n p)).force = some rs' ∧
      rs.Perm rs' := by
  have hab : AllSets NoEmpty (a.doAppend b) := by
    unfold Workload.doAppend
    split
    · cases ha with | set ha => cases hb with | set hb => exact .set fun x hx => (List.mem_append.1 hx).elim (ha x) (hb x)
    · cases ha with | append ha => cases hb with | append hb => exact .append fun x hx => (List.mem_append.1 hx).elim (ha x) (hb x)
    · cases ha with
      | append ha => exact .append fun x hx => (List.mem_append.1 hx).elim (ha x) fun h => by simp at h; exact h ▸ hb
    · cases hb with
      | append hb => exact .append fun x hx => (List.mem_append.1 hx).elim (hb x) fun h => by simp at h; exact h ▸ ha
    · exact .append fun x hx => by simp at hx; rcases hx with rfl | rfl <;> assumption
  obtain ⟨rs, h1, h2⟩ := C07_append a b _ _ (Workload.AllSets.force ha).1 (Workload.AllSets.force hb).1
  obtain ⟨rs', h3, h4⟩ := C07_append (a.doPlug n p) (b.doPlug n p) _ _
    (Workload.AllSets.force (Workload.AllSets.doPlug ha hp)).1 (Workload.AllSets.force (Workload.AllSets.doPlug hb hp)).1
  refine ⟨_, rs', (Workload.AllSets.force (Workload.AllSets.doPlug hab hp)).1, h3, ?_⟩
  rw [(Workload.AllSets.force hab).1] at h1
  cases h1
  refine List.Perm.trans ?_ h4.symm
  rw [Workload.forceT_doPlug_any hab hn, Workload.forceT_doPlug_any ha hn, Workload.forceT_doPlug_any hb hn, ← List.flatMap_append]
  exact List.Perm.flatMap_right _ h2

/-- **C86.** More pegs give more terms. -/
theorem C86_monotone (w p q : Workload) (n : String) (hw : AllSets NoEmpty w) (hp : AllSets NoEmpty p)
    (hq : AllSets NoEmpty q) (hn : LiteralName n)
    (h : ∀ ps qs, p.force = some ps → q.force = some qs → ∀ t ∈ ps, t ∈ qs) :
    ∃ rs rs', (w.doPlug n p).force = some rs ∧ (w.doPlug n q).force = some rs' ∧ ∀ t ∈ rs, t ∈ rs' := by
  obtain ⟨ts, ps, rs, h1, h2, h3, h4⟩ := C04_plug_fills w p n hw hp fun _ => hn
  obtain ⟨ts', qs, rs', h5, h6, h7, h8⟩ := C04_plug_fills w q n hw hq fun _ => hn
  rw [h1] at h5
  cases h5
  refine ⟨rs, rs', h3, h7, fun t ht => ?_⟩
  obtain ⟨u, hu, hf⟩ := (h4 t).1 ht
  exact (h8 t).2 ⟨u, hu, Fills.mono (h ps qs h2 h6) hf⟩

/-- Why C86 asks the pegs not to mention the other hole: otherwise the order matters. -/
theorem C86_order_matters : ¬ ∀ (w p q : Workload) (m n : String), m ≠ n → AllSets NoEmpty w → AllSets NoEmpty p →
    AllSets NoEmpty q → ∃ rs rs', ((w.doPlug m p).doPlug n q).force = some rs ∧
      ((w.doPlug n q).doPlug m p).force = some rs' ∧ rs.Perm rs' := by
  intro h
  obtain ⟨rs, rs', h1, h2, h3⟩ := h (.set [.atom "m"]) (.set [.atom "n"]) (.set [.atom "a"]) "m" "n" (by decide)
    (.set (by simp [NoEmpty.atom])) (.set (by simp [NoEmpty.atom])) (.set (by simp [NoEmpty.atom]))
  have e1 : (((Workload.set [.atom "m"]).doPlug "m" (.set [.atom "n"])).doPlug "n" (.set [.atom "a"])).force =
    some [.atom "a"] := by decide
  have e2 : (((Workload.set [.atom "m"]).doPlug "n" (.set [.atom "a"])).doPlug "m" (.set [.atom "n"])).force =
    some [.atom "n"] := by decide
  rw [e1] at h1
  rw [e2] at h2
  cases h1
  cases h2
  have := h3.mem_iff.1 (List.mem_singleton.2 rfl)
  simp at this

namespace Sample
/-- `(OP EXPR EXPR)` -/
def opExpr : Workload := .set [.list [a "OP", a "EXPR", a "EXPR"]]
/-- `x` and `(OP y)` -/
def opPegs : Workload := .set [a "x", .list [a "OP", a "y"]]
/-- two operators -/
def twoOps : Workload := .set [a "+", a "-"]
theorem opExpr_ok : AllSets NoEmpty opExpr :=
  .set fun t ht => noEmpty_grammar t (by simp only [List.mem_singleton] at ht; subst ht; simp)
theorem twoOps_ok : AllSets NoEmpty twoOps := .set (by simp [NoEmpty.atom])
theorem vars_ok : AllSets NoEmpty (.set [a "x", a "y"]) := .set (by simp [NoEmpty.atom])
theorem opPegs_ok : AllSets NoEmpty opPegs := by
  refine .set fun t ht => ?_
  simp only [List.mem_cons, List.not_mem_nil, or_false] at ht
  rcases ht with rfl | rfl
  · exact NoEmpty.atom _
  · rw [NoEmpty.list_iff]
    exact ⟨by simp, by simp [NoEmpty.atom]⟩
theorem not_mentions {xs : List Sexp} {n : String} (h : ∀ t ∈ xs, (.atom n) ∉ occurrences t) :
    ¬ Mentions (.set xs) n := by
  rintro ⟨ts, e, t, ht, hs⟩
  cases e
  exact h t ht ((mem_occurrences).2 hs)
end Sample

-- non-vacuity: eight terms each way, in different orders
example : AllSets NoEmpty Sample.opExpr ∧ AllSets NoEmpty Sample.twoOps ∧
    ¬ Mentions (.set [.atom "x", .atom "y"]) "OP" ∧ ¬ Mentions Sample.twoOps "EXPR" ∧
    ((Sample.opExpr.doPlug "EXPR" (.set [.atom "x", .atom "y"])).doPlug "OP" Sample.twoOps).force ≠
      ((Sample.opExpr.doPlug "OP" Sample.twoOps).doPlug "EXPR" (.set [.atom "x", .atom "y"])).force ∧
    (((Sample.opExpr.doPlug "OP" Sample.twoOps).doPlug "EXPR" (.set [.atom "x", .atom "y"])).force.map List.length) = some 8 :=
  ⟨Sample.opExpr_ok, Sample.twoOps_ok, Sample.not_mentions (by decide), Sample.not_mentions (by decide), by decide, by decide⟩

-- non-vacuity: pegs that mention the second hole, plugged in the pegs
example : AllSets NoEmpty Sample.opPegs ∧ AllSets NoEmpty Sample.twoOps ∧ Mentions Sample.opPegs "OP" ∧
    (((Workload.set [.list [.atom "f", .atom "E", .atom "E"]]).doPlug "E" (Sample.opPegs.doPlug "OP" Sample.twoOps)).force.map
      List.length) = some 9 ∧ ¬ Mentions (.set [.list [.atom "f", .atom "E", .atom "E"]]) "OP" :=
  ⟨Sample.opPegs_ok, Sample.twoOps_ok, ⟨_, rfl, .list [.atom "OP", .atom "y"], by simp, .child (List.mem_cons_self) (.refl _)⟩, by decide,
    Sample.not_mentions (by decide)⟩

end Ruler
