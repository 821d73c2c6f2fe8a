import Verif.Model.LogRows
/-!
# The report of `print_derive`
-/
namespace Ruler
variable {O C : Type} [Lang O] [LinearOrder C] (D : Domain O C)

/-- What `Ruleset::print_derive` writes to the standard output, src/enumo/ruleset.rs:481-496. `files` gives the contents of a file, if it can be
opened; `none` is a panic of reading, or of a search. -/
def printDerive (E : DeriveEnv O) (ty : DeriveType) (files : List Char → Option (List Char)) (one two : List Char) : Option (List Char) :=
  (files one).bind fun s => (Ruleset.fromFile s).bind fun r1 : Ruleset O =>
  (files two).bind fun s => (Ruleset.fromFile s).bind fun r2 : Ruleset O =>
  (Ruleset.derive D E.isSat ty .forDeriving E.split E.eg E.tr r1 r2).map fun p =>
    unlines (("Using ".toList ++ one ++ " (".toList ++ BV.decimal r1.length ++ ") to derive ".toList ++ two ++ " (".toList ++
        BV.decimal r2.length ++ ").".toList) ::
      ("Can derive ".toList ++ BV.decimal p.1.length ++ ", cannot derive ".toList ++ BV.decimal p.2.length ++ ". Missing:".toList) ::
      Ruleset.prettyLines p.2)

end Ruler
