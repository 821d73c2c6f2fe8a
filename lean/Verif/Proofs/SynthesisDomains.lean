import Verif.Proofs.Synthesis
import Verif.Proofs.RatText
import Verif.Proofs.VectorDomains
import Verif.Props.BV
/-!
# Operators, parsers and constant folding of the domains, for synthesis runs
-/
namespace Ruler
open Spec EGraph
variable {O C : Type} [Lang O] [LinearOrder C]

theorem notVarName {s : String} (h : s.toList.head? ≠ some '?') : ¬ VarName s := by
  rintro ⟨c, r, e⟩
  exact h (by rw [e]; rfl)

theorem noArrow_of {s : List Char} (h : '=' ∉ s) : ¬ HasArrow s := fun ha => h (ha.subset (by simp))

/-- Characters of numerals. -/
def NumChar (c : Char) : Prop := (48 ≤ c.toNat ∧ c.toNat ≤ 57) ∨ c = '-' ∨ c = '/'

theorem numeral_plain {l : List Char} (hn : l ≠ []) (h : ∀ c ∈ l, NumChar c) :
    Plain (String.ofList l) ∧ ¬ VarName (String.ofList l) ∧ ¬ HasArrow (String.ofList l).toList := by
  have key : ∀ c, NumChar c → c.toNat ∉ blanks ∧ c ≠ '(' ∧ c ≠ ')' ∧ c ≠ '"' ∧ c ≠ '?' ∧ c ≠ '=' := by
    rintro c (⟨h1, h2⟩ | rfl | rfl)
    · refine ⟨?_, ?_, ?_, ?_, ?_, ?_⟩
      · intro hb
        simp only [blanks] at hb
        simp at hb
        omega
      all_goals (rintro rfl; revert h1 h2; decide)
    · decide
    · decide
  refine ⟨⟨by simpa using hn, ?_⟩, notVarName ?_, noArrow_of ?_⟩
  · simp only [String.toList_ofList]
    intro c hc
    obtain ⟨h1, h2, h3, h4, -⟩ := key c (h c hc)
    exact ⟨h1, h2, h3, h4⟩
  · rw [String.toList_ofList]
    cases l with
    | nil => exact absurd rfl hn
    | cons c l =>
      simp only [List.head?_cons, ne_eq, Option.some.injEq]
      exact (key c (h c (by simp))).2.2.2.2.1
  · rw [String.toList_ofList]
    intro hc
    exact (key _ (h _ hc)).2.2.2.2.2 rfl

theorem decimal_numChar (n : Nat) : ∀ c ∈ BV.decimal n, NumChar c := fun c hc => .inl (decimal_chars n c hc)

theorem showInt_numChar (n : Int) : ∀ c ∈ showInt n, NumChar c := by
  intro c hc
  rw [showInt] at hc
  split at hc
  · rcases List.mem_cons.1 hc with rfl | hc
    · exact .inr (.inl rfl)
    · exact decimal_numChar _ c hc
  · exact decimal_numChar _ c hc

theorem showInt_ne_nil (n : Int) : showInt n ≠ [] := by
  rw [showInt]
  split
  · simp
  · exact decimal_ne_nil _

theorem parseInt_bound (bound : Int → Bool) (s : List Char) :
    parseInt bound s = (parseInt (fun _ => true) s).bind fun i => if bound i = true then some i else none := by
  unfold parseInt
  simp only [if_true, Option.bind_fun_some]

theorem parseInt_showInt_bound {bound : Int → Bool} {n : Int} (h : bound n = true) :
    parseInt bound (showInt n) = some n := by
  rw [parseInt_bound, parseInt_showInt, Option.bind_some, if_pos h]

theorem parseInt_mem {bound : Int → Bool} {s : List Char} {n : Int} (h : parseInt bound s = some n) : bound n = true := by
  rw [parseInt_bound] at h
  obtain ⟨i, -, h⟩ := Option.bind_eq_some_iff.1 h
  split at h
  · cases h; assumption
  · cases h

/-! ## Natural numbers -/

theorem nat_parsesSorted : ParsesSorted (O := NatOp) fun o k => k = o.arity := by
  intro s k o h
  simp only [Lang.fromOp] at h
  repeat' split at h
  all_goals first
    | (cases h; done)
    | (cases h; rename_i h; exact h.2)
    | (cases h; simp_all [NatOp.arity])

theorem nat_opsReadable : OpsReadable (O := NatOp) fun o k => k = o.arity := by
  rintro o k rfl hv
  cases o with
  | var x => simp [Lang.toVar] at hv
  | _ => exact ⟨by decide, notVarName (by decide), by decide, noArrow_of (by decide)⟩

theorem nat_const_ok : ∀ n, TmOk (fun (o : NatOp) k => k = o.arity) (NatOp.const n)
  | 0 => .node rfl (by simp)
  | n + 1 => .node rfl (by simpa using nat_const_ok n)

theorem nat_foldsSorted (rnd : Nat → Nat → Nat) : FoldsSorted (natDomain rnd) fun o k => k = o.arity := by
  refine ⟨fun _ _ => True, ⟨fun _ _ _ _ _ _ _ => trivial, fun _ _ _ _ _ _ _ => trivial, ?_, ?_, ?_⟩⟩
  · intro c v t _ h
    simp only [natDomain, NatOp.mkConstant] at h
    split at h
    · cases h
    · cases h; exact ⟨nat_const_ok _, rfl⟩
  · intro nodes val i _ t ht
    simp [natDomain] at ht
  · intro x t ht
    simp [natDomain] at ht

/-! ## Bit-vectors -/

theorem low_of_merge {P : C → Prop} {a b : Interval C} (ha : ∀ c, a.low = some c → P c) (hb : ∀ c, b.low = some c → P c)
    {x : C} (hx : maxLow a.low b.low = some x) : P x := by
  cases hal : a.low with
  | none =>
    cases hbl : b.low with
    | none => rw [hal, hbl] at hx; cases hx
    | some y => rw [hal, hbl] at hx; cases hx; exact hb _ hbl
  | some y =>
    cases hbl : b.low with
    | none => rw [hal, hbl] at hx; cases hx; exact ha _ hal
    | some z =>
      rw [hal, hbl] at hx
      simp only [maxLow, Option.some.injEq] at hx
      subst hx
      rcases max_choice y z with e | e <;> rw [e]
      · exact ha _ hal
      · exact hb _ hbl

theorem bv_parse_proper {N : Nat} (hN : N ≤ 128) {s : List Char} {n : BV N} (h : BV.parse (N := N) s = some (some n)) :
    Proper n := by
  rw [BV.parse.eq_def] at h
  split at h
  · obtain ⟨i, -, e⟩ := Option.map_eq_some_iff.1 h
    cases e
    exact BV.new_proper hN _
  · simp only [Option.some.injEq, Option.map_eq_some_iff] at h
    obtain ⟨i, -, rfl⟩ := h
    exact BV.new_proper hN _

theorem bv_parsesSorted {N : Nat} (hN : N ≤ 128) : ParsesSorted (O := BvOp N) fun o k => k = o.arity ∧ LitProper o := by
  intro s k o h
  simp only [Lang.fromOp] at h
  repeat' split at h
  all_goals first
    | (cases h; done)
    | (cases h; rename_i h; exact ⟨h.2, trivial⟩)
    | (cases h; rename_i h' _ n h; subst h'; exact ⟨rfl, bv_parse_proper hN h⟩)
    | (cases h; simp_all [BvOp.arity, LitProper])

theorem bv_opsReadable {N : Nat} (hN : N ≤ 128) : OpsReadable (O := BvOp N) fun o k => k = o.arity ∧ LitProper o := by
  rintro o k ⟨rfl, hp⟩ hv
  cases o with
  | var x => simp [Lang.toVar] at hv
  | lit c =>
    have hr := C43_roundtrip hN c hp
    obtain ⟨h1, h2, h3⟩ := numeral_plain (l := c.display) (decimal_ne_nil _) (decimal_numChar _)
    refine ⟨h1, h2, ?_, h3⟩
    simp [Lang.fromOp, Lang.display, BvOp.arity, hr]
  | _ =>
    refine ⟨?_, notVarName ?_, by simp [Lang.fromOp, Lang.display, BvOp.arity], noArrow_of ?_⟩ <;>
      simp only [Lang.display] <;> decide

theorem bv_foldsSorted {N : Nat} : FoldsSorted (bvDomain N) fun o k => k = o.arity ∧ LitProper o := by
  have key := bv_folds_proper (N := N) fun _ => 0
  refine ⟨fun J _ => ∀ c, J.low = some c → Proper c, ⟨?_, ?_, ?_, ?_, ?_⟩⟩
  · intro o Js vs J har _ hJ c hc
    simp only [bvDomain] at hJ
    cases o with
    | lit c' =>
      simp only [BvOp.mkInterval, Interval.new, le_refl, if_true, Option.some.injEq] at hJ
      subst hJ
      cases hc
      exact har.2
    | _ =>
      simp only [BvOp.mkInterval, Option.some.injEq] at hJ
      subst hJ
      cases hc
  · intro a b c v ha hb h x hx
    rw [mergeInterval_eq h] at hx
    exact low_of_merge ha hb hx
  · intro c v t hm ht
    simp only [bvDomain, Option.some.injEq] at ht
    subst ht
    exact ⟨.node ⟨rfl, hm c rfl⟩ (by simp), rfl⟩
  · intro nodes val i _ t ht
    simp [bvDomain] at ht
  · intro x t ht
    simp [bvDomain] at ht

/-! ## Integers (Halide) -/

theorem halide_parsesSorted : ParsesSorted (O := PredOp) fun o k => k = o.arity ∧ PredLitFits o := by
  intro s k o h
  simp only [Lang.fromOp] at h
  repeat' split at h
  all_goals first
    | (cases h; done)
    | (cases h; rename_i h' _ n h; subst h'; exact ⟨rfl, parseInt_mem h⟩)
    | (cases h; rename_i h' _ h; subst h'; exact ⟨rfl, trivial⟩)
    | (cases h; simp_all [PredOp.arity, PredLitFits])

theorem halide_opsReadable : OpsReadable (O := PredOp) fun o k => k = o.arity ∧ PredLitFits o := by
  rintro o k ⟨rfl, hp⟩ hv
  cases o with
  | var x => simp [Lang.toVar] at hv
  | lit c =>
    obtain ⟨h1, h2, h3⟩ := numeral_plain (showInt_ne_nil c) (showInt_numChar c)
    refine ⟨h1, h2, ?_, h3⟩
    simp [Lang.fromOp, Lang.display, PredOp.arity, parseInt_showInt_bound hp]
  | _ => exact ⟨by decide, notVarName (by decide), by decide, by
      first
      | exact noArrow_of (by decide)
      | exact fun ha => (by decide : '>' ∉ _) (ha.subset (by simp))⟩

theorem halide_foldsSorted : FoldsSorted halideDomain fun o k => k = o.arity ∧ PredLitFits o :=
  ⟨_, NoFold.foldsIn halide_noFold _ _⟩

theorem halide_litVarOps : VarOps (O := PredOp) fun o k => k = o.arity ∧ PredLitFits o := by
  refine ⟨fun s => ⟨rfl, rfl, trivial⟩, ?_⟩
  intro o x h
  cases o <;> cases h
  exact ⟨rfl, fun k hk => hk.1⟩

/-! ## Rationals -/

theorem ratOfTextIn_ratText {x : Rat} (hf : Fits64 x) : ratOfTextIn inI64 (ratText x) = some x := by
  have ns := showInt_no_slash x.num
  rw [ratText]
  split
  · rename_i hd
    have e1 : (showInt x.num).takeWhile (fun c => decide (c ≠ '/')) = showInt x.num := by
      have := List.takeWhile_append_of_pos (l₂ := []) ns
      simpa using this
    have e2 : (showInt x.num).dropWhile (fun c => decide (c ≠ '/')) = [] := by
      have := List.dropWhile_append_of_pos (l₂ := []) ns
      simpa using this
    have e3 : parseInt inI64 ['1'] = some 1 := by decide +kernel
    rw [ratOfTextIn, e1, e2]
    simp only [parseInt_showInt_bound hf.1, e3, Option.bind_some, one_ne_zero, ↓reduceIte, Option.some.injEq]
    rw [Int.cast_one, div_one]
    exact Rat.den_eq_one_iff _ |>.1 hd
  · have e1 : (showInt x.num ++ '/' :: showInt x.den).takeWhile (fun c => decide (c ≠ '/')) = showInt x.num := by
      rw [List.takeWhile_append_of_pos ns]
      simp
    have e2 : (showInt x.num ++ '/' :: showInt x.den).dropWhile (fun c => decide (c ≠ '/')) = '/' :: showInt x.den := by
      rw [List.dropWhile_append_of_pos ns]
      simp
    rw [ratOfTextIn, e1, e2]
    simp only [parseInt_showInt_bound hf.1, parseInt_showInt_bound hf.2, Option.bind_some]
    rw [if_neg (by exact_mod_cast x.den_nz)]
    exact congrArg some (Rat.num_div_den x)

theorem ratText_numChar (x : Rat) : ∀ c ∈ ratText x, NumChar c := by
  intro c hc
  rw [ratText] at hc
  split at hc
  · exact showInt_numChar _ c hc
  · rcases List.mem_append.1 hc with hc | hc
    · exact showInt_numChar _ c hc
    · rcases List.mem_cons.1 hc with rfl | hc
      · exact .inr (.inr rfl)
      · exact showInt_numChar _ c hc

theorem ratText_ne_nil (x : Rat) : ratText x ≠ [] := by
  rw [ratText]
  split
  · exact showInt_ne_nil _
  · simp

theorem rational_parsesSorted : ParsesSorted (O := MathOp) fun o k => k = o.arity ∧ MathLitFits o := by
  intro s k o h
  simp only [Lang.fromOp] at h
  split at h
  all_goals first
    | (cases h; done)
    | (cases h; exact ⟨rfl, trivial⟩)
    | skip
  unfold MathOp.leaf at h
  split at h
  · split at h
    · rename_i hb
      cases h
      rw [Bool.and_eq_true] at hb
      exact ⟨rfl, hb⟩
    · cases h
  · cases h
    exact ⟨rfl, trivial⟩

theorem rational_opsReadable : OpsReadable (O := MathOp) fun o k => k = o.arity ∧ MathLitFits o := by
  rintro o k ⟨rfl, hp⟩ hv
  cases o with
  | var x => simp [Lang.toVar] at hv
  | lit c =>
    obtain ⟨h1, h2, h3⟩ := numeral_plain (ratText_ne_nil c) (ratText_numChar c)
    refine ⟨h1, h2, ?_, h3⟩
    have : Lang.fromOp (String.ofList (ratText c)) 0 = MathOp.leaf (String.ofList (ratText c)) := by
      simp only [Lang.fromOp]
    simp only [Lang.display, MathOp.arity]
    rw [this, MathOp.leaf, String.toList_ofList, ratOfTextIn_ratText hp]
    simp only [hp.1, hp.2, Bool.and_self, if_true]
  | _ => exact ⟨by decide, notVarName (by decide), by decide, noArrow_of (by decide)⟩

theorem rational_litVarOps : VarOps (O := MathOp) fun o k => k = o.arity ∧ MathLitFits o := by
  refine ⟨fun s => ⟨rfl, rfl, trivial⟩, ?_⟩
  intro o x h
  cases o <;> cases h
  exact ⟨rfl, fun k hk => hk.1⟩

theorem rational_folds64 {ck : Checked} (hk : Results64 ck) :
    FoldsIn (rationalDomain ck) (fun o k => k = o.arity ∧ MathLitFits o) (fun _ _ => ()) fun J _ => ∀ c, J.low = some c → Fits64 c := by
  refine ⟨?_, ?_, ?_, ?_, ?_⟩
  · intro o Js vs J har hm hJ c hc
    simp only [rationalDomain, MathOp.mkInterval, Option.bind_eq_some_iff] at hJ
    obtain ⟨r, hr, hJ⟩ := hJ
    have hget : ∀ K ∈ Js, ∀ x, MathOp.getConst K = some x → Fits64 x := by
      intro K hK x hx
      obtain ⟨u, -, hu⟩ := forall2_mem_left hm hK
      simp only [MathOp.getConst] at hx
      split at hx
      · exact hu x hx
      · cases hx
    cases r with
    | none =>
      simp only [Option.some.injEq] at hJ
      subst hJ
      cases hc
    | some x =>
      simp only [Interval.new, le_refl, if_true, Option.some.injEq] at hJ
      subst hJ
      simp only [Option.some.injEq] at hc
      subst hc
      unfold MathOp.foldConst at hr
      split at hr
      · cases hr; exact har.2
      · cases hr
      · split at hr
        · obtain ⟨y, hy, e⟩ := Option.map_eq_some_iff.1 hr
          cases e
          exact hk.neg _ _ hy
        · cases hr
      · split at hr
        · obtain ⟨y, hy, e⟩ := Option.map_eq_some_iff.1 hr
          cases e
          exact hk.abs _ _ hy
        · cases hr
      · simp only [Option.some.injEq, Option.bind_eq_some_iff] at hr
        obtain ⟨_, -, _, -, hr⟩ := hr
        exact hk.add _ _ _ hr
      · simp only [Option.some.injEq, Option.bind_eq_some_iff] at hr
        obtain ⟨_, -, _, -, hr⟩ := hr
        exact hk.sub _ _ _ hr
      · simp only [Option.some.injEq, Option.bind_eq_some_iff] at hr
        obtain ⟨_, -, _, -, hr⟩ := hr
        exact hk.mul _ _ _ hr
      · simp only [Option.some.injEq, Option.bind_eq_some_iff] at hr
        obtain ⟨_, -, _, -, hr⟩ := hr
        exact hk.div _ _ _ hr
      · simp only [Option.some.injEq, Option.bind_eq_some_iff] at hr
        obtain ⟨_, -, hr⟩ := hr
        split at hr
        · exact hget _ (by simp) _ hr
        · exact hget _ (by simp) _ hr
      · cases hr
  · intro a b c v ha hb h x hx
    rw [mergeInterval_eq h] at hx
    exact low_of_merge ha hb hx
  · intro c v t hm ht
    simp only [rationalDomain, Option.some.injEq] at ht
    subst ht
    exact ⟨.node ⟨rfl, hm c rfl⟩ (by simp), rfl⟩
  · intro nodes val i _ t ht
    simp [rationalDomain] at ht
  · intro x t ht
    simp [rationalDomain] at ht

theorem rational_foldsSorted {ck : Checked} (hk : Results64 ck) :
    FoldsSorted (rationalDomain ck) fun o k => k = o.arity ∧ MathLitFits o :=
  ⟨_, rational_folds64 hk⟩

end Ruler
