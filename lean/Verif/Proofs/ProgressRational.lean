import Verif.Spec.ProgressRational
import Verif.Proofs.ProgressDomains
import Verif.Proofs.SynthesisDomains
/-!
# The rational analysis does not fail
-/
namespace Ruler
open Spec
variable {K : Type} [Field K] [LinearOrder K] [IsStrictOrderedRing K] {ck : Checked}

theorem rational_eval_total {o : MathOp} {n : Nat} {args : List (CVec Rat)} (har : RatSafe o args.length) (hl : ∀ a ∈ args, a.length = n) :
    ∃ cv, MathOp.eval ck n o args = some cv ∧ (Lang.toVar o = none → cv.length = n) := by
  obtain ⟨⟨har, -⟩, hn, ha⟩ := har
  cases o with
  | var x =>
    cases list_len0 har
    exact ⟨_, rfl, fun h => by cases h⟩
  | lit c =>
    cases list_len0 har
    exact ⟨_, rfl, fun _ => by simp⟩
  | neg => exact absurd rfl hn
  | abs => exact absurd rfl ha
  | add | sub | mul | div =>
    obtain ⟨v, w, rfl⟩ := list_len2 har
    exact ⟨_, rfl, fun _ => cmap2_length _ (hl v (by simp)) (hl w (by simp))⟩
  | ite =>
    obtain ⟨v, w, u, rfl⟩ := list_len3 har
    exact ⟨_, rfl, fun _ => by simp [hl v, hl w, hl u]⟩

theorem rational_fold_total {o : MathOp} {Js : List (Interval Rat)} (har : RatSafe o Js.length) : ∃ r, MathOp.foldConst ck o Js = some r := by
  obtain ⟨⟨har, -⟩, hn, ha⟩ := har
  cases o with
  | var | lit =>
    cases list_len0 har
    exact ⟨_, rfl⟩
  | neg => exact absurd rfl hn
  | abs => exact absurd rfl ha
  | add | sub | mul | div =>
    obtain ⟨v, w, rfl⟩ := list_len2 har
    exact ⟨_, rfl⟩
  | ite =>
    obtain ⟨v, w, u, rfl⟩ := list_len3 har
    exact ⟨_, rfl⟩

theorem rational_safe (hck : ExactOrNone ck) (hk : Results64 ck) : SafeDomain (rationalDomain ck) (RatSafe) (mathOpVal (K := K))
    (fun J v => ConstOf (fun c : Rat => some (c : K)) J v ∧ ∀ c, J.low = some c → Fits64 c)
    (fun (e : Option Rat) (v : Option K) => ∀ q, e = some q → v = some (q : K)) where
  folds env :=
    { interval := by
        intro o Js vs J har hm hJ
        refine ⟨(rational_folds ck hck env).interval o Js vs J har.1.1 (hm.imp fun _ _ h => h.1) hJ, ?_⟩
        exact (rational_folds64 hk).interval o Js (vs.map fun _ => ()) J (by simpa using har.1) (by
          rw [List.forall₂_map_right_iff]
          exact hm.imp fun _ _ h => h.2) hJ
      join := by
        intro a b c v h1 h2 h
        exact ⟨(rational_folds ck hck env).join a b c v h1.1 h2.1 h, (rational_folds64 hk).join a b c () h1.2 h2.2 h⟩
      const := by
        intro c v t h ht
        cases ht
        exact ⟨.node ⟨⟨rfl, h.2 c rfl⟩, by simp, by simp⟩ (by simp), ((rational_folds ck hck env).const c v _ h.1 rfl).2⟩
      custom := by intro nodes val i _ t h; cases h
      varTerms := by intro x t h; cases h }
  plain := ⟨fun _ _ => rfl, fun _ => rfl, (rational_plain ck).const, (rational_plain ck).varInterval⟩
  vars := by
    refine ⟨fun s => ⟨rfl, ⟨rfl, trivial⟩, by simp [Lang.mkVar], by simp [Lang.mkVar]⟩, ?_⟩
    intro o x h
    cases o <;> cases h
    exact ⟨rfl, fun k hk => hk.1.1⟩
  leaf := by
    rintro o k ⟨⟨rfl, -⟩, -⟩ h
    cases o <;> first | rfl | cases h
  computes :=
    { node := fun n j o args vs cv hj ho har hf h => (rational_computes ck hck).node n j o args vs cv hj ho har.1.1 hf h
      var := (rational_computes (K := K) ck hck).var }
  total :=
    { eval := fun n o args har hl => rational_eval_total har hl
      interval := by
        intro o Js vs har hm
        have hlen : Js.length = o.arity := hm.length_eq.trans har.1.1
        obtain ⟨r, hr⟩ := rational_fold_total (ck := ck) ⟨⟨hlen, har.1.2⟩, har.2⟩
        simp only [rationalDomain, MathOp.mkInterval, hr, Option.bind_some]
        cases r with
        | none => exact ⟨_, rfl⟩
        | some c => exact ⟨_, by simp [Interval.new]; rfl⟩
      join := by
        intro a b v h1 h2
        obtain ⟨c, h⟩ := Option.isSome_iff_exists.1 (ConstOf.isSome h1.1 h2.1 fun c c' _ _ h => by simpa using h)
        exact ⟨c, h⟩
      const := fun c v _ => ⟨_, rfl⟩
      args := by
        intro c o args h _ a ha
        cases h
        cases ha
      same := by
        intro c c' t t' h h' _ _ he
        cases h
        cases h'
        have : (some (c : K)) = some (c' : K) := he fun _ => none
        have : c = c' := by simpa using this
        rw [this]
      sample := by
        intro a b v ha hb
        have := (ha a rfl).symm.trans (hb b rfl)
        simpa using this }

/-! ## Fewer operators, and values in a part of the algebra -/

section
variable {O C V V' : Type} [Lang O] [LinearOrder C] {D : Domain O C} {ar ar' : O → Nat → Prop} {I : O → List V → V} {I' : O → List V' → V'}
  {mem : Interval C → V → Prop} {fits : Option C → V → Prop} {ι : V' → V}

omit [LinearOrder C] in
theorem fold_embed (hI : ∀ o vs, ar' o vs.length → Lang.toVar o = none → I o (vs.map ι) = ι (I' o vs)) (env : String → V') {t : Tm O}
    (ht : TmOk ar' t) : Tm.fold (withVars (fun x => ι (env x)) I) t = ι (Tm.fold (withVars env I') t) := by
  induction ht with
  | @node o l har _ ih =>
    rw [Tm.fold_node, Tm.fold_node]
    cases h : Lang.toVar o with
    | some x => simp [withVars, h]
    | none =>
      have : l.map (Tm.fold (withVars (fun x => ι (env x)) I)) = (l.map (Tm.fold (withVars env I'))).map ι := by
        rw [List.map_map]
        exact List.map_congr_left ih
      simp only [withVars, h]
      rw [← hI o _ (by simpa using har) h, ← this]

theorem tmOk_weaken (har : ∀ o k, ar' o k → ar o k) {t : Tm O} (ht : TmOk ar' t) : TmOk ar t := by
  induction ht with
  | node h _ ih => exact .node (har _ _ h) ih

theorem safeDomain_restrict (hD : SafeDomain D ar I mem fits) (hι : Function.Injective ι) (har : ∀ o k, ar' o k → ar o k)
    (hI : ∀ o vs, ar' o vs.length → Lang.toVar o = none → I o (vs.map ι) = ι (I' o vs)) (hvar : ∀ s, ar' (Lang.mkVar s) 0)
    (hconst : ∀ c t, D.mkConst c = some t → TmOk ar t → TmOk ar' t)
    (hsame : ∀ c c' t t', D.mkConst c = some t → D.mkConst c' = some t' → TmOk ar' t → TmOk ar' t' →
      (∀ env : String → V', tmVal env I' t = tmVal env I' t') → t = t') :
    SafeDomain D ar' I' (fun J v => mem J (ι v)) (fun e v => fits e (ι v)) where
  folds env :=
    { interval := by
        intro o Js vs J h hm hJ
        have h1 := (hD.folds fun x => ι (env x)).interval o Js (vs.map ι) J (har _ _ (by simpa using h))
          (by rwa [List.forall₂_map_right_iff]) hJ
        cases ho : Lang.toVar o with
        | some x => simpa [withVars, ho] using h1
        | none =>
          simp only [withVars, ho] at h1 ⊢
          rwa [hI o vs h ho] at h1
      join := fun a b c v h1 h2 h => (hD.folds fun x => ι (env x)).join a b c _ h1 h2 h
      const := by
        intro c v t h ht
        obtain ⟨h1, h2⟩ := (hD.folds fun x => ι (env x)).const c _ t h ht
        have h3 := hconst c t ht h1
        exact ⟨h3, hι (by rw [← fold_embed hI env h3, h2])⟩
      custom := by intro nodes val i _ t h; rw [hD.plain.custom] at h; cases h
      varTerms := by intro x t h; rw [hD.plain.varTerms] at h; cases h }
  plain := ⟨hD.plain.custom, hD.plain.varTerms, hD.plain.const, hD.plain.varInterval⟩
  vars := ⟨fun s => ⟨(hD.vars.1 s).1, hvar s⟩, fun o x h => ⟨(hD.vars.2 o x h).1, fun k hk => (hD.vars.2 o x h).2 k (har _ _ hk)⟩⟩
  leaf := fun o k h => hD.leaf o k (har _ _ h)
  computes :=
    { node := by
        intro n j o args vs cv hj ho h hf hc
        have := hD.computes.node n j o args (vs.map ι) cv hj ho (har _ _ (by simpa using h))
          (by rw [List.forall₂_map_right_iff]; exact hf) hc
        rw [hI o vs h ho] at this
        exact this
      var := hD.computes.var }
  total :=
    { eval := fun n o args h hl => hD.total.eval n o args (har _ _ h) hl
      interval := fun o Js vs h hm => hD.total.interval o Js (vs.map ι) (har _ _ (by simpa using h)) (by rwa [List.forall₂_map_right_iff])
      join := fun a b v h1 h2 => hD.total.join a b _ h1 h2
      const := fun c v h => hD.total.const c _ h
      args := fun c o args h ht => hD.total.args c o args h (tmOk_weaken har ht)
      same := hsame
      sample := fun a b v h1 h2 => hD.total.sample a b _ h1 h2 }
end

end Ruler
