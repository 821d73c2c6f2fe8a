import Verif.Model.RecExpr
import Verif.Proofs.Rule
/-! Helper lemmas about flat expressions. -/
namespace Ruler
variable {A B C O : Type}

theorem Tm.foldL_eq (f : A → List B → B) (l : List (Tm A)) : Tm.foldL f l = l.map (Tm.fold f) := by
  induction l with
  | nil => rfl
  | cons t l ih => simp [Tm.foldL, ih]

theorem Tm.fold_node (f : A → List B → B) (o : A) (l : List (Tm A)) :
    Tm.fold f (.node o l) = f o (l.map (Tm.fold f)) := by
  rw [Tm.fold, Tm.foldL_eq]

theorem mapM_getElem_map (h : B → C) (buf : List B) (cs : List Nat) :
    (cs.mapM fun c => (buf.map h)[c]?) = (cs.mapM fun c => buf[c]?).map (List.map h) := by
  induction cs with
  | nil => rfl
  | cons c cs ih =>
    rw [List.mapM_cons, List.mapM_cons, ih, List.getElem?_map]
    cases buf[c]? with
    | none => rfl
    | some b => cases cs.mapM fun c => buf[c]? <;> rfl

namespace RecExpr

/-- Folding commutes with homomorphisms. -/
theorem foldBuf_map (f : A → List B → B) (g : A → List C → C) (h : B → C)
    (hom : ∀ a l, h (f a l) = g a (l.map h)) (e : RecExpr A) (buf : List B) :
    foldBuf g e (buf.map h) = (foldBuf f e buf).map (List.map h) := by
  induction e generalizing buf with
  | nil => rfl
  | cons n e ih =>
    rw [foldBuf, foldBuf, mapM_getElem_map]
    cases hc : n.children.mapM fun c => buf[c]? with
    | none => rfl
    | some args =>
      simp only [Option.map_some, Option.bind_some]
      rw [← ih, List.map_append, List.map_singleton, hom]

theorem run_map (f : A → List B → B) (g : A → List C → C) (h : B → C)
    (hom : ∀ a l, h (f a l) = g a (l.map h)) (e : RecExpr A) : run g e = (run f e).map h := by
  have := foldBuf_map f g h hom e []
  rw [List.map_nil] at this
  rw [run, run, this]
  cases foldBuf f e [] with
  | none => rfl
  | some b => simp [List.getLast?_map]

/-- A bottom-up loop computes the fold of the tree. -/
theorem run_eq_tree (f : A → List B → B) (e : RecExpr A) : run f e = (tree e).map (Tm.fold f) :=
  run_map Tm.node f (Tm.fold f) (fun a l => Tm.fold_node f a l) e

end RecExpr

theorem Pat.instantiateL_eq [Lang O] (l : List (Pat O)) : Pat.instantiateL l = l.map Pat.instantiate := by
  induction l with
  | nil => rfl
  | cons p l ih => simp [Pat.instantiateL, ih]

/-- Instantiating the flat pattern gives the flat form of the instantiated tree. -/
theorem PatternAst.instantiate_tree [Lang O] (e : PatternAst O) (p : Pat O) (r : RecExpr O)
    (hp : e.pat = some p) (hr : e.instantiate = some r)
    (hvar : ∀ n ∈ e, ∀ v, n.op = .var v → n.children = []) : r.tree = some p.instantiate := by
  have key : ∀ (e : PatternAst O) (r : RecExpr O) (buf : List (Pat O)), e.instantiate = some r →
      (∀ n ∈ e, ∀ v, n.op = .var v → n.children = []) →
      RecExpr.foldBuf Tm.node r (buf.map Pat.instantiate) =
        (RecExpr.foldBuf POp.pat e buf).map (List.map Pat.instantiate) := by
    intro e
    induction e with
    | nil =>
      intro r buf hr _
      simp only [PatternAst.instantiate, List.mapM_nil] at hr
      cases hr; rfl
    | cons n e ih =>
      intro r buf hr hv
      simp only [PatternAst.instantiate, List.mapM_cons] at hr
      cases hn : n.op.instantiate with
      | none => simp [hn] at hr
      | some o =>
        simp only [hn, Option.map_some] at hr
        cases hrest : e.mapM fun n => n.op.instantiate.map fun o => (⟨o, n.children⟩ : FNode O) with
        | none => rw [hrest] at hr; cases hr
        | some r' =>
          rw [hrest] at hr
          cases hr
          rw [RecExpr.foldBuf, RecExpr.foldBuf, mapM_getElem_map]
          cases hc : n.children.mapM fun c => buf[c]? with
          | none => rfl
          | some args =>
            simp only [Option.map_some, Option.bind_some]
            have : Tm.node o (args.map Pat.instantiate) = Pat.instantiate (POp.pat n.op args) := by
              cases hop : n.op with
              | op o' =>
                rw [hop] at hn
                cases hn
                simp [POp.pat, Pat.instantiate, Pat.instantiateL_eq]
              | var v =>
                have hnil := hv n (by simp) v hop
                rw [hnil] at hc
                cases hc
                rw [hop] at hn
                simp only [POp.instantiate] at hn
                split at hn
                · cases hn; rfl
                · cases hn
            rw [this, ← List.map_singleton (f := Pat.instantiate), ← List.map_append]
            exact ih r' _ hrest fun n hn => hv n (by simp [hn])
  have h1 := key e r [] hr hvar
  rw [RecExpr.tree, RecExpr.run]
  rw [List.map_nil] at h1
  rw [h1]
  rw [PatternAst.pat, RecExpr.run] at hp
  cases hb : RecExpr.foldBuf POp.pat e [] with
  | none => rw [hb] at hp; cases hp
  | some b =>
    rw [hb] at hp
    simp only [Option.bind_some] at hp
    simp [List.getLast?_map, hp]

end Ruler
