import Verif.Model.Minimize
/-!
# `SymbolLang` as a domain, src/lib.rs:169-210
-/
namespace Ruler

/-- A node of `egg::SymbolLang`: any symbol, with any number of children. -/
structure SymOp where
  name : String
deriving DecidableEq

/-- src/lib.rs:171-210: `to_var` (line 185-187) knows no variables, `mk_var` (189-194) makes the symbol of that name, nothing is a constant
(196-198); all operators are allowed (src/language.rs:236-238). Every text with any number of children is read as a node (egg). -/
instance : Lang SymOp where
  decEq := inferInstance
  display o := o.name
  fromOp t _ := some ⟨t⟩
  toVar _ := none
  mkVar s := ⟨s⟩
  isConst _ := false
  allowed _ := true

/-- `eval`, src/lib.rs:174-179; `mk_interval`, src/language.rs:175-180; `mk_constant`, src/lib.rs:200-205; `initialize_vars` is `todo!()`,
src/lib.rs:181-183. -/
def symbolDomain : Domain SymOp Nat where
  eval _ _ _ := some []
  mkInterval _ _ := some ⟨none, none⟩
  mkConst c := some (.node ⟨toString c⟩ [])
  initVars _ := none

/-- `validate`, src/lib.rs:207-209. -/
def symbolValid (_ : List (Rule SymOp)) (_ : Rule SymOp) : Bool := false

end Ruler
