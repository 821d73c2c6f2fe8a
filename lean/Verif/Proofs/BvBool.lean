import Verif.Proofs.Chars
import Verif.Props.Lifting
/-!
# Lemmas about the domain of two-bit vectors

Rules are interpreted in sequences of Booleans: the Boolean operations and the bitwise operations work position by position,
`first` and `second` select the even and the odd positions, `bv` interleaves. In this one-sorted algebra the exploratory
rules, constant folding and the definition of the variables are correct without conditions, and a well-sorted rule holds in
it iff it is true of Booleans and two-bit vectors.
-/
namespace Ruler
open Spec EGraph

/-- Sequences of Booleans. -/
abbrev BitSeq := Nat → Bool

/-- Interleaving. -/
def BitSeq.zip (a b : BitSeq) : BitSeq := fun n => if n % 2 = 0 then a (n / 2) else b (n / 2)

/-- The operators on sequences. -/
def seqVal : BvBoolOp → List BitSeq → BitSeq
  | .not, [a] => fun n => !(a n)
  | .and, [a, b] => fun n => a n && b n
  | .or, [a, b] => fun n => a n || b n
  | .xor, [a, b] => fun n => a n ^^ b n
  | .implies, [a, b] => fun n => !(a n) || b n
  | .lit b, [] => fun _ => b
  | .band, [a, b] => fun n => a n && b n
  | .bor, [a, b] => fun n => a n || b n
  | .bxor, [a, b] => fun n => a n ^^ b n
  | .bnot, [a] => fun n => !(a n)
  | .num c, [] => BitSeq.zip (fun _ => c.val.getLsbD 1) (fun _ => c.val.getLsbD 0)
  | .make, [a, b] => BitSeq.zip a b
  | .first, [a] => fun n => a (2 * n)
  | .second, [a] => fun n => a (2 * n + 1)
  | _, _ => fun _ => false

theorem zip_even (a b : BitSeq) (n : Nat) : BitSeq.zip a b (2 * n) = a n := by
  simp [BitSeq.zip]

theorem zip_odd (a b : BitSeq) (n : Nat) : BitSeq.zip a b (2 * n + 1) = b n := by
  have h1 : (2 * n + 1) % 2 = 1 := by omega
  have h2 : (2 * n + 1) / 2 = n := by omega
  simp [BitSeq.zip, h1, h2]

theorem zip_halves (a : BitSeq) : BitSeq.zip (fun n => a (2 * n)) (fun n => a (2 * n + 1)) = a := by
  funext n
  unfold BitSeq.zip
  split
  · exact congrArg a (by omega)
  · exact congrArg a (by omega)

/-- The sides of the exploratory texts. -/
def bvBoolSides : List (Pat BvBoolOp × Pat BvBoolOp) := [
  (.node .first [.node .bnot [.var "?a"]], .node .not [.node .first [.var "?a"]]),
  (.node .second [.node .bnot [.var "?a"]], .node .not [.node .second [.var "?a"]]),
  (.node .first [.node .band [.var "?a", .var "?b"]], .node .and [.node .first [.var "?a"], .node .first [.var "?b"]]),
  (.node .second [.node .band [.var "?a", .var "?b"]], .node .and [.node .second [.var "?a"], .node .second [.var "?b"]]),
  (.node .first [.node .bor [.var "?a", .var "?b"]], .node .or [.node .first [.var "?a"], .node .first [.var "?b"]]),
  (.node .second [.node .bor [.var "?a", .var "?b"]], .node .or [.node .second [.var "?a"], .node .second [.var "?b"]]),
  (.node .first [.node .bxor [.var "?a", .var "?b"]], .node .xor [.node .first [.var "?a"], .node .first [.var "?b"]]),
  (.node .second [.node .bxor [.var "?a", .var "?b"]], .node .xor [.node .second [.var "?a"], .node .second [.var "?b"]])]

set_option maxRecDepth 20000 in
theorem bvBool_sides : tableSides BvBoolOp.exploratoryTexts = some bvBoolSides :=
  (tableSides_chars (chars_of% BvBoolOp.exploratoryTexts)).trans (by decide +kernel)

theorem bvBool_good : ∀ p ∈ bvBoolSides, (Schematic p.1 ∧ Schematic p.2) ∧
    ∀ ρ, patVal ρ seqVal p.1 = patVal ρ seqVal p.2 := by
  have h : ∀ p ∈ bvBoolSides, schematicB p.1 = true ∧ schematicB p.2 = true := by decide +kernel
  refine fun p hp => ⟨⟨schematicB_sound _ (h p hp).1, schematicB_sound _ (h p hp).2⟩, ?_⟩
  clear h
  revert p
  simp only [bvBoolSides, List.forall_mem_cons]
  refine ⟨?_, ?_, ?_, ?_, ?_, ?_, ?_, ?_, by simp⟩ <;> intro ρ <;> rfl

theorem bvBoolExploratory_good {expl : Ruleset BvBoolOp} (h : bvBoolExploratory = some expl) :
    ∀ r ∈ Ruleset.iter expl, (Schematic r.lhs ∧ Schematic r.rhs) ∧ Holds seqVal r := by
  obtain ⟨rs, h1, rfl⟩ := Option.map_eq_some_iff.1 h
  intro r hr
  rcases mem_iter_add hr with rfl | hr
  · refine ⟨⟨schematicB_sound _ (by decide +kernel), schematicB_sound _ (by decide +kernel)⟩, fun ρ => ?_⟩
    simp only [BvBoolOp.defBv, patVal, patValL, seqVal, zip_halves]
  · exact bvBool_good _ ((table_sides bvBool_sides h1).2 r hr)

theorem boolConst_some {nodes : List (FNode BvBoolOp)} {b : Bool} (h : BvBoolOp.boolConst nodes = some b) :
    ∃ nd ∈ nodes, nd.op = .lit b ∧ nd.children = [] := by
  unfold BvBoolOp.boolConst at h
  obtain ⟨nd, hnd, h⟩ := List.exists_of_findSome?_eq_some h
  refine ⟨nd, hnd, ?_⟩
  split at h
  · rename_i c e e'
    cases h
    exact ⟨e, e'⟩
  · cases h

theorem pairConst_seq (x y : Bool) : seqVal (.num (BvBoolOp.pairConst x y)) [] = BitSeq.zip (fun _ => x) (fun _ => y) := by
  have h1 : (BvBoolOp.pairConst x y).val.getLsbD 1 = x := by cases x <;> cases y <;> decide +kernel
  have h2 : (BvBoolOp.pairConst x y).val.getLsbD 0 = y := by cases x <;> cases y <;> decide +kernel
  simp only [seqVal, h1, h2]

theorem bvBool_folds (env : String → BitSeq) :
    FoldsIn bvBoolDomain AnySort (withVars env seqVal) (fun J _ => J = ⟨none, none⟩) where
  interval := by
    intro o Js vs J _ _ h
    cases h
    rfl
  join := by
    intro a b c v ha hb h
    subst ha hb
    simp only [mergeInterval, maxLow, minHigh, Interval.new, Option.some.injEq] at h
    exact h.symm
  const := by
    intro c v t h
    cases h
  custom := by
    intro nodes val i hval t ht
    refine ⟨TmOk.any _, ?_⟩
    simp only [bvBoolDomain, BvBoolOp.custom] at ht
    split at ht
    · simp at ht
    · rw [Option.mem_toList] at ht
      obtain ⟨nd, hnd, h⟩ := List.exists_of_findSome?_eq_some ht
      split at h
      · rename_i a b ho hc
        obtain ⟨x, hx, h⟩ := Option.bind_eq_some_iff.1 h
        obtain ⟨y, hy, h⟩ := Option.map_eq_some_iff.1 h
        subst h
        obtain ⟨nx, hnx, ex, cx⟩ := boolConst_some hx
        obtain ⟨ny, hny, ey, cy⟩ := boolConst_some hy
        have va := hval a nx hnx
        have vb := hval b ny hny
        rw [ex, cx] at va
        rw [ey, cy] at vb
        have vi := hval i nd hnd
        rw [ho, hc] at vi
        rw [vi, Tm.fold, Tm.foldL]
        simp only [withVars, Lang.toVar, List.map_cons, List.map_nil, va, vb] at *
        rw [pairConst_seq]
        rfl
      · cases h
  varTerms := by
    intro x t ht
    simp only [bvBoolDomain, List.mem_singleton] at ht
    subst ht
    refine ⟨TmOk.any _, ?_⟩
    simp only [Tm.fold, Tm.foldL, withVars, Lang.toVar, Lang.mkVar, seqVal, zip_halves]

/-! ## Sequences and values -/

/-- A value that the sequence shows at (bits) position `n`. -/
def Shows (n : Nat) (s : BitSeq) : BvBoolValue → Prop
  | .bool b => s n = b
  | .vec v => s (2 * n) = v.getLsbD 1 ∧ s (2 * n + 1) = v.getLsbD 0

theorem lsb_append (a b : Bool) : (BitVec.ofBool a ++ BitVec.ofBool b).getLsbD 1 = a ∧
    (BitVec.ofBool a ++ BitVec.ofBool b).getLsbD 0 = b := by
  cases a <;> cases b <;> decide

theorem sort_bool {v : BvBoolValue} (h : v.sort = .bool) : ∃ b, v = .bool b := by
  cases v with
  | bool b => exact ⟨b, rfl⟩
  | vec v => cases h

theorem sort_vec {v : BvBoolValue} (h : v.sort = .vec) : ∃ b, v = .vec b := by
  cases v with
  | bool b => cases h
  | vec v => exact ⟨v, rfl⟩

/-- The value of a well-sorted pattern has its sort, and the value in sequences shows it. -/
theorem shows_val {Γ : String → BvSort} {p : Pat BvBoolOp} {τ : BvSort} (h : HasSort Γ p τ) {n : Nat}
    {σ : String → BitSeq} {ρ : String → BvBoolValue} (hs : ∀ x, (ρ x).sort = Γ x) (hr : ∀ x, Shows n (σ x) (ρ x)) :
    (patVal ρ bvBoolVal p).sort = τ ∧ Shows n (patVal σ seqVal p) (patVal ρ bvBoolVal p) := by
  induction h with
  | var x => exact ⟨hs x, hr x⟩
  | lit b => exact ⟨rfl, rfl⟩
  | num c =>
    refine ⟨rfl, ?_⟩
    simp [patVal, patValL, bvBoolVal, seqVal, Shows, zip_even, zip_odd]
  | not _ ih =>
    obtain ⟨a, ea⟩ := sort_bool ih.1
    have h1 := ih.2
    rw [ea] at h1
    simp only [Shows] at h1
    exact ⟨by simp only [patVal, patValL, ea, bvBoolVal, BvBoolValue.sort],
      by simp only [patVal, patValL, ea, bvBoolVal, seqVal, Shows, h1]⟩
  | bnot _ ih =>
    obtain ⟨a, ea⟩ := sort_vec ih.1
    have h1 := ih.2
    rw [ea] at h1
    simp only [Shows] at h1
    exact ⟨by simp only [patVal, patValL, ea, bvBoolVal, BvBoolValue.sort],
      by simp [patVal, patValL, ea, bvBoolVal, seqVal, Shows, h1]⟩
  | first _ ih =>
    obtain ⟨a, ea⟩ := sort_vec ih.1
    have h1 := ih.2
    rw [ea] at h1
    simp only [Shows] at h1
    exact ⟨by simp only [patVal, patValL, ea, bvBoolVal, BvBoolValue.sort],
      by simp only [patVal, patValL, ea, bvBoolVal, seqVal, Shows, h1]⟩
  | second _ ih =>
    obtain ⟨a, ea⟩ := sort_vec ih.1
    have h1 := ih.2
    rw [ea] at h1
    simp only [Shows] at h1
    exact ⟨by simp only [patVal, patValL, ea, bvBoolVal, BvBoolValue.sort],
      by simp only [patVal, patValL, ea, bvBoolVal, seqVal, Shows, h1]⟩
  | make _ _ ih1 ih2 =>
    obtain ⟨a, ea⟩ := sort_bool ih1.1
    obtain ⟨b, eb⟩ := sort_bool ih2.1
    have h1 := ih1.2
    have h2 := ih2.2
    rw [ea] at h1
    rw [eb] at h2
    simp only [Shows] at h1 h2
    refine ⟨by simp only [patVal, patValL, ea, eb, bvBoolVal, BvBoolValue.sort], ?_⟩
    simp only [patVal, patValL, ea, eb, bvBoolVal, seqVal, Shows, zip_even, zip_odd, h1, h2, lsb_append, and_self]
  | band _ _ ih1 ih2 | bor _ _ ih1 ih2 | bxor _ _ ih1 ih2 =>
    obtain ⟨a, ea⟩ := sort_vec ih1.1
    obtain ⟨b, eb⟩ := sort_vec ih2.1
    have h1 := ih1.2
    have h2 := ih2.2
    rw [ea] at h1
    rw [eb] at h2
    simp only [Shows] at h1 h2
    exact ⟨by simp only [patVal, patValL, ea, eb, bvBoolVal, BvBoolValue.sort],
      by simp [patVal, patValL, ea, eb, bvBoolVal, seqVal, Shows, h1, h2]⟩
  | and _ _ ih1 ih2 | or _ _ ih1 ih2 | xor _ _ ih1 ih2 | implies _ _ ih1 ih2 =>
    obtain ⟨a, ea⟩ := sort_bool ih1.1
    obtain ⟨b, eb⟩ := sort_bool ih2.1
    have h1 := ih1.2
    have h2 := ih2.2
    rw [ea] at h1
    rw [eb] at h2
    simp only [Shows] at h1 h2
    exact ⟨by simp only [patVal, patValL, ea, eb, bvBoolVal, BvBoolValue.sort],
      by simp only [patVal, patValL, ea, eb, bvBoolVal, seqVal, Shows, h1, h2]⟩

theorem shows_unique {n : Nat} {s : BitSeq} {v w : BvBoolValue} (h1 : Shows n s v) (h2 : Shows n s w)
    (h : v.sort = w.sort) : v = w := by
  cases v <;> cases w <;> simp only [BvBoolValue.sort, reduceCtorEq] at h <;> simp only [Shows] at h1 h2
  · rw [← h1, ← h2]
  · rename_i v w
    congr 1
    apply BitVec.eq_of_getLsbD_eq
    intro i hi
    rcases (by omega : i = 0 ∨ i = 1) with rfl | rfl
    · rw [← h1.2, h2.2]
    · rw [← h1.1, h2.1]

/-- A sequence that shows the value everywhere. -/
def showing : BvBoolValue → BitSeq
  | .bool b => fun _ => b
  | .vec v => BitSeq.zip (fun _ => v.getLsbD 1) (fun _ => v.getLsbD 0)

theorem shows_showing (n : Nat) (v : BvBoolValue) : Shows n (showing v) v := by
  cases v with
  | bool b => rfl
  | vec v => simp only [Shows, showing, zip_even, zip_odd, and_self]

/-- The value that a sequence shows at a position. -/
def shown (τ : BvSort) (s : BitSeq) (n : Nat) : BvBoolValue :=
  match τ with
  | .bool => .bool (s n)
  | .vec => .vec (BitVec.ofBool (s (2 * n)) ++ BitVec.ofBool (s (2 * n + 1)))

theorem shows_shown (τ : BvSort) (s : BitSeq) (n : Nat) : Shows n s (shown τ s n) ∧ (shown τ s n).sort = τ := by
  cases τ with
  | bool => exact ⟨rfl, rfl⟩
  | vec => exact ⟨⟨(lsb_append _ _).1.symm, (lsb_append _ _).2.symm⟩, rfl⟩

/-- A well-sorted rule holds in sequences iff it is true of Booleans and two-bit vectors. -/
theorem holds_seq_iff {Γ : String → BvSort} {τ : BvSort} {r : Rule BvBoolOp} (hl : HasSort Γ r.lhs τ)
    (hr : HasSort Γ r.rhs τ) : Holds seqVal r ↔ TrueAt Γ r := by
  constructor
  · intro h ρ hρ
    have key := fun p (hp : HasSort Γ p τ) =>
      shows_val hp (n := 0) (σ := fun x => showing (ρ x)) hρ fun x => shows_showing 0 (ρ x)
    have h1 := key _ hl
    have h2 := key _ hr
    rw [h] at h1
    exact shows_unique h1.2 h2.2 (h1.1.trans h2.1.symm)
  · intro h σ
    have key : ∀ n, ∃ v : BvBoolValue, v.sort = τ ∧ Shows n (patVal σ seqVal r.lhs) v ∧ Shows n (patVal σ seqVal r.rhs) v := by
      intro n
      have hs : ∀ x, (shown (Γ x) (σ x) n).sort = Γ x := fun x => (shows_shown _ _ _).2
      have h1 := shows_val hl (n := n) (σ := σ) hs fun x => (shows_shown _ _ _).1
      have h2 := shows_val hr (n := n) (σ := σ) hs fun x => (shows_shown _ _ _).1
      have e := h (fun x => shown (Γ x) (σ x) n) hs
      rw [← e] at h2
      exact ⟨_, h1.1, h1.2, h2.2⟩
    funext m
    cases τ with
    | bool =>
      obtain ⟨v, hv, h1, h2⟩ := key m
      obtain ⟨b, rfl⟩ := sort_bool hv
      exact Eq.trans h1 (Eq.symm h2)
    | vec =>
      obtain ⟨v, hv, h1, h2⟩ := key (m / 2)
      obtain ⟨b, rfl⟩ := sort_vec hv
      rcases (by omega : m = 2 * (m / 2) ∨ m = 2 * (m / 2) + 1) with e | e
      · rw [e]
        exact h1.1.trans h2.1.symm
      · rw [e]
        exact h1.2.trans h2.2.symm

end Ruler
