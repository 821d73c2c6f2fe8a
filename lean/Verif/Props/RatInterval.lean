import Verif.Proofs.RatInterval
import Verif.Proofs.Domain
/-!
# C48: interval arithmetic of the rational domain

Every theorem is about intervals that contain some number (`Interval::new` rejects others).
-/
namespace Ruler
open Spec

/-- C48, negation: the result exists and contains exactly the negations of the members. -/
theorem C48_neg (I : Interval Rat) (hI : ∃ x, InInterval I x) :
    ∃ J, RatInterval.neg I = some J ∧ ∀ x, InInterval I x ↔ InInterval J (-x) := by
  have h : ∀ x, InInterval I x → InInterval ⟨I.high.map (- ·), I.low.map (- ·)⟩ (-x) := by
    intro x hx
    refine ⟨?_, ?_⟩
    · intro a ha
      cases hh : I.high with
      | none => simp [hh] at ha
      | some b => simp [hh] at ha; have := hx.2 b hh; linarith
    · intro a ha
      cases hh : I.low with
      | none => simp [hh] at ha
      | some b => simp [hh] at ha; have := hx.1 b hh; linarith
  obtain ⟨x0, hx0⟩ := hI
  refine ⟨⟨I.high.map (- ·), I.low.map (- ·)⟩, interval_new_of_mem (h x0 hx0).1 (h x0 hx0).2, fun x => ⟨h x, ?_⟩⟩
  intro hx
  refine ⟨?_, ?_⟩
  · intro a ha
    have := hx.2 (-a) (by simp [ha])
    linarith
  · intro a ha
    have := hx.1 (-a) (by simp [ha])
    linarith

/-- C48, addition. -/
theorem C48_add (I J : Interval Rat) (hI : ∃ x, InInterval I x) (hJ : ∃ y, InInterval J y) :
    ∃ R, RatInterval.add I J = some R ∧ ∀ x y, InInterval I x → InInterval J y → InInterval R (x + y) := by
  obtain ⟨R, h1, h2⟩ := interval_build (P := fun p : Rat × Rat => InInterval I p.1 ∧ InInterval J p.2)
    (f := fun p => p.1 + p.2) (l := RatInterval.zipOp (· + ·) I.low J.low) (h := RatInterval.zipOp (· + ·) I.high J.high)
    (by obtain ⟨x, hx⟩ := hI; obtain ⟨y, hy⟩ := hJ; exact ⟨(x, y), hx, hy⟩) (by
      rintro ⟨x, y⟩ ⟨hx, hy⟩
      refine ⟨?_, ?_⟩
      · intro r hr
        obtain ⟨a, b, ha, hb, rfl⟩ := zipOp_some hr
        have := hx.1 a ha; have := hy.1 b hb
        show a + b ≤ x + y
        linarith
      · intro r hr
        obtain ⟨a, b, ha, hb, rfl⟩ := zipOp_some hr
        have := hx.2 a ha; have := hy.2 b hb
        show x + y ≤ a + b
        linarith)
  exact ⟨R, h1, fun x y hx hy => h2 (x, y) ⟨hx, hy⟩⟩

/-- C48, multiplication. -/
theorem C48_mul (I J : Interval Rat) (hI : ∃ x, InInterval I x) (hJ : ∃ y, InInterval J y) :
    ∃ R, RatInterval.mul I J = some R ∧ ∀ x y, InInterval I x → InInterval J y → InInterval R (x * y) := by
  have build : ∀ l h : Option Rat,
      (∀ x y, InInterval I x → InInterval J y → (∀ r, l = some r → r ≤ x * y) ∧ ∀ r, h = some r → x * y ≤ r) →
      ∃ R, Interval.new l h = some R ∧ ∀ x y, InInterval I x → InInterval J y → InInterval R (x * y) := by
    intro l h hb
    obtain ⟨R, h1, h2⟩ := interval_build (P := fun p : Rat × Rat => InInterval I p.1 ∧ InInterval J p.2)
      (f := fun p => p.1 * p.2) (l := l) (h := h)
      (by obtain ⟨x, hx⟩ := hI; obtain ⟨y, hy⟩ := hJ; exact ⟨(x, y), hx, hy⟩)
      (by rintro ⟨x, y⟩ ⟨hx, hy⟩; exact hb x y hx hy)
    exact ⟨R, h1, fun x y hx hy => h2 (x, y) ⟨hx, hy⟩⟩
  unfold RatInterval.mul
  cases sI : RatInterval.sign I <;> cases sJ : RatInterval.sign J <;> apply build <;> intro x y hx hy
  · -- positive, positive
    have px := sign_positive sI hx
    have py := sign_positive sJ hy
    refine ⟨?_, ?_⟩ <;> intro r hr <;> obtain ⟨a, b, ha, hb, rfl⟩ := zipOp_some hr
    · obtain ⟨_, l, hl, hl0⟩ := px
      obtain ⟨_, m, hm, hm0⟩ := py
      rw [hl] at ha; rw [hm] at hb; cases ha; cases hb
      exact mul_le_mul (hx.1 _ hl) (hy.1 _ hm) hm0.le (by linarith [hx.1 _ hl])
    · exact mul_le_mul (hx.2 _ ha) (hy.2 _ hb) py.1.le (by linarith [hx.2 _ ha])
  · -- positive, containsZero
    have px := sign_positive sI hx
    have py := sign_containsZero sJ hy
    refine ⟨?_, ?_⟩ <;> intro r hr <;> obtain ⟨a, b, ha, hb, rfl⟩ := zipOp_some hr
    · have h1 := hx.2 _ ha; have h2 := hy.1 _ hb; have h3 := py.1 _ hb; have h4 := px.1
      show a * b ≤ x * y
      nlinarith
    · have h1 := hx.2 _ ha; have h2 := hy.2 _ hb; have h3 := py.2 _ hb; have h4 := px.1
      show x * y ≤ a * b
      nlinarith
  · -- positive, negative
    have px := sign_positive sI hx
    have py := sign_negative sJ hy
    refine ⟨?_, ?_⟩ <;> intro r hr <;> obtain ⟨a, b, ha, hb, rfl⟩ := zipOp_some hr
    · have h1 := hx.2 _ ha; have h2 := hy.1 _ hb; have h3 := py.1; have h4 := px.1
      show a * b ≤ x * y
      nlinarith
    · obtain ⟨_, l, hl, hl0⟩ := px
      obtain ⟨_, m, hm, hm0⟩ := py
      rw [hl] at ha; rw [hm] at hb; cases ha; cases hb
      have h1 := hx.1 _ hl; have h2 := hy.2 _ hm
      show x * y ≤ a * b
      nlinarith
  · -- containsZero, positive
    have px := sign_containsZero sI hx
    have py := sign_positive sJ hy
    refine ⟨?_, ?_⟩ <;> intro r hr <;> obtain ⟨a, b, ha, hb, rfl⟩ := zipOp_some hr
    · have h1 := hx.1 _ ha; have h2 := hy.2 _ hb; have h3 := px.1 _ ha; have h4 := py.1
      show a * b ≤ x * y
      nlinarith
    · have h1 := hx.2 _ ha; have h2 := hy.2 _ hb; have h3 := px.2 _ ha; have h4 := py.1
      show x * y ≤ a * b
      nlinarith
  · -- containsZero, containsZero
    have px := sign_containsZero sI hx
    have py := sign_containsZero sJ hy
    refine ⟨?_, ?_⟩ <;> intro r hr <;> obtain ⟨p, q, hp, hq, rfl⟩ := zipOp_some hr <;>
      obtain ⟨a, b, ha, hb, rfl⟩ := zipOp_some hp <;> obtain ⟨c, d, hc, hd, rfl⟩ := zipOp_some hq
    · have h1 := hx.1 _ ha; have h2 := hy.2 _ hb; have h3 := hx.2 _ hc; have h4 := hy.1 _ hd
      have k1 := px.1 _ ha; have k2 := py.2 _ hb; have k3 := px.2 _ hc; have k4 := py.1 _ hd
      show min (a * b) (c * d) ≤ x * y
      rcases le_total 0 x with h0 | h0
      · exact le_trans (min_le_right _ _) (by nlinarith)
      · exact le_trans (min_le_left _ _) (by nlinarith)
    · have h1 := hx.2 _ ha; have h2 := hy.2 _ hb; have h3 := hx.1 _ hc; have h4 := hy.1 _ hd
      have k1 := px.2 _ ha; have k2 := py.2 _ hb; have k3 := px.1 _ hc; have k4 := py.1 _ hd
      show x * y ≤ max (a * b) (c * d)
      rcases le_total 0 x with h0 | h0
      · exact le_trans (by nlinarith) (le_max_left _ _)
      · exact le_trans (by nlinarith) (le_max_right _ _)
  · -- containsZero, negative
    have px := sign_containsZero sI hx
    have py := sign_negative sJ hy
    refine ⟨?_, ?_⟩ <;> intro r hr <;> obtain ⟨a, b, ha, hb, rfl⟩ := zipOp_some hr
    · have h1 := hx.2 _ ha; have h2 := hy.1 _ hb; have h3 := px.2 _ ha; have h4 := py.1
      show a * b ≤ x * y
      nlinarith
    · have h1 := hx.1 _ ha; have h2 := hy.1 _ hb; have h3 := px.1 _ ha; have h4 := py.1
      show x * y ≤ a * b
      nlinarith
  · -- negative, positive
    have px := sign_negative sI hx
    have py := sign_positive sJ hy
    refine ⟨?_, ?_⟩ <;> intro r hr <;> obtain ⟨a, b, ha, hb, rfl⟩ := zipOp_some hr
    · have h1 := hx.1 _ ha; have h2 := hy.2 _ hb; have h3 := px.1; have h4 := py.1
      show a * b ≤ x * y
      nlinarith
    · obtain ⟨_, l, hl, hl0⟩ := px
      obtain ⟨_, m, hm, hm0⟩ := py
      rw [hl] at ha; rw [hm] at hb; cases ha; cases hb
      have h1 := hx.2 _ hl; have h2 := hy.1 _ hm
      show x * y ≤ a * b
      nlinarith
  · -- negative, containsZero
    have px := sign_negative sI hx
    have py := sign_containsZero sJ hy
    refine ⟨?_, ?_⟩ <;> intro r hr <;> obtain ⟨a, b, ha, hb, rfl⟩ := zipOp_some hr
    · have h1 := hx.1 _ ha; have h2 := hy.2 _ hb; have h3 := py.2 _ hb; have h4 := px.1
      show a * b ≤ x * y
      nlinarith
    · have h1 := hx.1 _ ha; have h2 := hy.1 _ hb; have h3 := py.1 _ hb; have h4 := px.1
      show x * y ≤ a * b
      nlinarith
  · -- negative, negative
    have px := sign_negative sI hx
    have py := sign_negative sJ hy
    refine ⟨?_, ?_⟩ <;> intro r hr <;> obtain ⟨a, b, ha, hb, rfl⟩ := zipOp_some hr
    · obtain ⟨_, l, hl, hl0⟩ := px
      obtain ⟨_, m, hm, hm0⟩ := py
      rw [hl] at ha; rw [hm] at hb; cases ha; cases hb
      have h1 := hx.2 _ hl; have h2 := hy.2 _ hm
      show a * b ≤ x * y
      nlinarith
    · have h1 := hx.1 _ ha; have h2 := hy.1 _ hb; have h3 := px.1; have h4 := py.1
      show x * y ≤ a * b
      nlinarith

/-- C48, reciprocal, of all non-zero members. -/
theorem C48_recip (I : Interval Rat) (hI : ∃ x, InInterval I x) :
    ∃ R, RatInterval.recip I = some R ∧ ∀ x, InInterval I x → x ≠ 0 → InInterval R x⁻¹ := by
  have triv : ∀ x : Rat, InInterval ⟨none, none⟩ x := fun x => ⟨by intro a h; (cases h), by intro a h; (cases h)⟩
  obtain ⟨l, u⟩ := I
  cases l with
  | none => exact ⟨_, by simp [RatInterval.recip], fun x _ _ => triv _⟩
  | some a =>
    cases u with
    | none => exact ⟨_, by simp [RatInterval.recip], fun x _ _ => triv _⟩
    | some b =>
      unfold RatInterval.recip
      dsimp only
      cases hs : RatInterval.sign ⟨some a, some b⟩ with
      | containsZero => exact ⟨_, rfl, fun x _ _ => triv _⟩
      | positive =>
        obtain ⟨R, h1, h2⟩ := interval_build (P := fun x => InInterval ⟨some a, some b⟩ x) (f := fun x => x⁻¹)
          (l := some b⁻¹) (h := some a⁻¹) hI (by
            intro x hx
            have hp := (sign_positive hs hx).1
            obtain ⟨_, l, hl, hl0⟩ := sign_positive hs hx
            cases hl
            refine ⟨?_, ?_⟩ <;> intro r hr <;> cases hr
            · exact (inv_le_inv₀ (lt_of_lt_of_le hp (hx.2 _ rfl)) hp).2 (hx.2 _ rfl)
            · exact (inv_le_inv₀ hp hl0).2 (hx.1 _ rfl))
        exact ⟨R, h1, fun x hx _ => h2 x hx⟩
      | negative =>
        obtain ⟨R, h1, h2⟩ := interval_build (P := fun x => InInterval ⟨some a, some b⟩ x) (f := fun x => x⁻¹)
          (l := some b⁻¹) (h := some a⁻¹) hI (by
            intro x hx
            have hp := (sign_negative hs hx).1
            obtain ⟨_, l, hl, hl0⟩ := sign_negative hs hx
            cases hl
            refine ⟨?_, ?_⟩ <;> intro r hr <;> cases hr
            · exact (inv_le_inv_of_neg hl0 hp).2 (hx.2 _ rfl)
            · exact (inv_le_inv_of_neg hp (lt_of_le_of_lt (hx.1 _ rfl) hp)).2 (hx.1 _ rfl))
        exact ⟨R, h1, fun x hx _ => h2 x hx⟩

/-- C48, absolute value, for intervals without negative members or without bounds. Missing: all others, see
`C48_abs_wrong`. -/
theorem C48_abs_partial (I : Interval Rat) (hI : ∃ x, InInterval I x)
    (h : (∃ l, I.low = some l ∧ 0 ≤ l) ∨ (I.low = none ∧ I.high = none)) :
    ∃ R, RatInterval.abs I = some R ∧ ∀ x, InInterval I x → InInterval R |x| := by
  obtain ⟨l, u⟩ := I
  rcases h with ⟨l', hl, hl0⟩ | ⟨h1, h2⟩
  · cases hl
    have hx0 : ∀ x, InInterval ⟨some l', u⟩ x → |x| = x := fun x hx => abs_of_nonneg (le_trans hl0 (hx.1 _ rfl))
    have hr : RatInterval.abs ⟨some l', u⟩ = Interval.new (some l') u := by
      cases u with
      | none => simp [RatInterval.abs, not_lt.2 hl0]
      | some u =>
        obtain ⟨x, hx⟩ := hI
        have : ¬ u < 0 := not_lt.2 (le_trans hl0 (le_trans (hx.1 _ rfl) (hx.2 _ rfl)))
        simp [RatInterval.abs, not_lt.2 hl0, this]
    rw [hr]
    obtain ⟨R, h1, h2⟩ := interval_build (P := fun x => InInterval ⟨some l', u⟩ x) (f := fun x => x)
      (l := some l') (h := u) hI (fun x hx => hx)
    exact ⟨R, h1, fun x hx => by rw [hx0 x hx]; exact h2 x hx⟩
  · dsimp only at h1 h2
    subst h1; subst h2
    exact ⟨⟨none, none⟩, by simp [RatInterval.abs, Interval.new], fun x _ =>
      ⟨by intro a h; (cases h), by intro a h; (cases h)⟩⟩

/-- C48 fails for the absolute value of other intervals: for `[-5, 3]` and `[-5, -1]` the construction panics, for
`[-1, ∞)` the result misses `|0|`, for `(-∞, 3]` it misses `|-10|`. -/
theorem C48_abs_wrong :
    RatInterval.abs ⟨some (-5), some 3⟩ = none ∧
    RatInterval.abs ⟨some (-5), some (-1)⟩ = none ∧
    (∃ R, RatInterval.abs ⟨some (-1), none⟩ = some R ∧ InInterval ⟨some (-1), none⟩ (0 : Rat) ∧
      ¬ InInterval R |(0 : Rat)|) ∧
    (∃ R, RatInterval.abs ⟨none, some 3⟩ = some R ∧ InInterval ⟨none, some 3⟩ (-10 : Rat) ∧
      ¬ InInterval R |(-10 : Rat)|) := by
  refine ⟨by decide +kernel, by decide +kernel, ⟨⟨some 1, none⟩, by decide +kernel, ?_, ?_⟩,
    ⟨⟨none, some 3⟩, by decide +kernel, ?_, ?_⟩⟩
  · exact ⟨by intro a h; cases h; norm_num, by intro a h; (cases h)⟩
  · intro h
    have := h.1 1 rfl
    norm_num at this
  · exact ⟨by intro a h; (cases h), by intro a h; cases h; norm_num⟩
  · intro h
    have := h.2 3 rfl
    rw [abs_of_neg (by norm_num)] at this
    norm_num at this

/-- C48: the interval stored for a node by `mk_interval` is either unbounded or a single number, and then the expression
is defined with this value for every assignment. -/
theorem C48_fold (ck : Checked) (hck : ExactOrNone ck) (t : Tm MathOp) (ws : WellSorted MathOp.arity (fun _ => True) t)
    (I : Interval Rat) (h : termInterval (MathOp.mkInterval ck) t = some I) :
    I = ⟨none, none⟩ ∨ ∃ c, I = ⟨some c, some c⟩ ∧
      ∀ env : String → Option Rat, tmVal env mathOpVal t = some c := by
  induction t using Tm.ind generalizing I with
  | hn o l ih =>
    cases ws with
    | node ha _ hargs =>
    rw [termInterval_node] at h
    cases hm : l.mapM (termInterval (MathOp.mkInterval ck)) with
    | none => rw [hm] at h; cases h
    | some Is =>
    rw [hm, Option.bind_some] at h
    unfold MathOp.mkInterval at h
    cases hf : MathOp.foldConst ck o Is with
    | none => rw [hf] at h; cases h
    | some r =>
    rw [hf, Option.bind_some] at h
    cases r with
    | none => cases h; exact .inl rfl
    | some c =>
    have hI : I = ⟨some c, some c⟩ := by
      have : (Interval.new (some c) (some c)) = some ⟨some c, some c⟩ := by simp [Interval.new]
      dsimp only at h
      rw [this] at h
      cases h; rfl
    refine .inr ⟨c, hI, fun env => ?_⟩
    -- the children whose constant was used
    have child : ∀ a ∈ l, ∀ J, termInterval (MathOp.mkInterval ck) a = some J → ∀ d, MathOp.getConst J = some d →
        tmVal env mathOpVal a = some d := by
      intro a hal J hJ d hd
      rcases ih a hal (hargs a hal) J hJ with rfl | ⟨e, rfl, he⟩
      · cases hd
      · simp [MathOp.getConst] at hd
        rw [← hd]; exact he env
    have nv : ∀ x, o ≠ .var x := by
      rintro x rfl
      have := list_len0 ha; subst this
      simp at hm; subst hm
      cases hf
    have hv : Lang.toVar o = none := by
      cases o with
      | var x => exact absurd rfl (nv x)
      | _ => rfl
    rw [tmVal_node _ _ hv]
    cases o with
    | var x => exact absurd rfl (nv x)
    | lit n =>
      have := list_len0 ha; subst this
      simp at hm; subst hm
      cases hf
      simp [mathOpVal]
    | neg | abs =>
      obtain ⟨a, rfl⟩ := list_len1 ha
      cases hJ : termInterval (MathOp.mkInterval ck) a with
      | none => simp [hJ] at hm
      | some J =>
      simp [hJ] at hm; subst hm
      simp only [MathOp.foldConst] at hf
      cases hg : MathOp.getConst J with
      | none => rw [hg] at hf; cases hf
      | some d =>
      rw [hg] at hf
      have h1 := child a (by simp) J hJ d hg
      simp only [Option.map_eq_some_iff, Option.some.injEq, exists_eq_right] at hf
      first
        | rw [hck.neg _ _ hf]; simp [h1, mathOpVal]
        | rw [hck.abs _ _ hf]; simp [h1, mathOpVal]
    | add | sub | mul | div =>
      obtain ⟨a, b, rfl⟩ := list_len2 ha
      cases hJ : termInterval (MathOp.mkInterval ck) a with
      | none => simp [hJ] at hm
      | some J =>
      cases hK : termInterval (MathOp.mkInterval ck) b with
      | none => simp [hJ, hK] at hm
      | some K =>
      simp [hJ, hK] at hm; subst hm
      simp only [MathOp.foldConst, Option.some.injEq] at hf
      cases hg : MathOp.getConst J with
      | none => rw [hg] at hf; cases hf
      | some d =>
      cases hg2 : MathOp.getConst K with
      | none => rw [hg, hg2] at hf; cases hf
      | some e =>
      rw [hg, hg2] at hf
      simp only [Option.bind_some] at hf
      have h1 := child a (by simp) J hJ d hg
      have h2 := child b (by simp) K hK e hg2
      first
        | rw [hck.add _ _ _ hf]; simp [h1, h2, mathOpVal]
        | rw [hck.sub _ _ _ hf]; simp [h1, h2, mathOpVal]
        | rw [hck.mul _ _ _ hf]; simp [h1, h2, mathOpVal]
        | rw [(hck.div _ _ _ hf).2]; simp [h1, h2, mathOpVal, (hck.div _ _ _ hf).1]
    | ite =>
      obtain ⟨a, b, c', rfl⟩ := list_len3 ha
      cases hJ : termInterval (MathOp.mkInterval ck) a with
      | none => simp [hJ] at hm
      | some J =>
      cases hK : termInterval (MathOp.mkInterval ck) b with
      | none => simp [hJ, hK] at hm
      | some K =>
      cases hL : termInterval (MathOp.mkInterval ck) c' with
      | none => simp [hJ, hK, hL] at hm
      | some L =>
      simp [hJ, hK, hL] at hm; subst hm
      simp only [MathOp.foldConst, Option.some.injEq] at hf
      cases hg : MathOp.getConst J with
      | none => rw [hg] at hf; cases hf
      | some d =>
      rw [hg] at hf
      simp only [Option.bind_some] at hf
      have h1 := child a (by simp) J hJ d hg
      by_cases hd : d = 0
      · simp [hd] at hf
        have h3 := child c' (by simp) L hL c hf
        simp [h1, h3, mathOpVal, hd]
      · simp [hd] at hf
        have h2 := child b (by simp) K hK c hf
        simp [h1, h2, mathOpVal, hd]

/-- Arithmetic without bounds satisfies `ExactOrNone`. -/
def exactChecked : Checked where
  add x y := some (x + y)
  sub x y := some (x - y)
  mul x y := some (x * y)
  div x y := if y = 0 then none else some (x / y)
  neg x := some (-x)
  abs x := some |x|

theorem exactChecked_ok : ExactOrNone exactChecked where
  add _ _ _ h := (Option.some.inj h).symm
  sub _ _ _ h := (Option.some.inj h).symm
  mul _ _ _ h := (Option.some.inj h).symm
  div x y r h := by
    unfold exactChecked at h
    dsimp only at h
    split at h
    · cases h
    · exact ⟨‹_›, (Option.some.inj h).symm⟩
  neg _ _ h := (Option.some.inj h).symm
  abs _ _ h := (Option.some.inj h).symm

/-- `(if 1 (/ 1 2) (/ x 0))` folds to one half. -/
example : termInterval (MathOp.mkInterval exactChecked)
    (.node .ite [.node (.lit 1) [], .node .div [.node (.lit 1) [], .node (.lit 2) []],
      .node .div [.node (.var "x") [], .node (.lit 0) []]]) = some ⟨some (1/2), some (1/2)⟩ := by
  decide +kernel

example : ∃ x : Rat, InInterval ⟨some (-2), some 3⟩ x :=
  ⟨0, by intro a h; cases h; norm_num, by intro a h; cases h; norm_num⟩

end Ruler
