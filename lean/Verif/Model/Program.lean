import Verif.Model.Text
import Verif.Model.Cli
/-!
# The command line program on texts

`Model/Cli.lean` leaves the parser of numbers and the reading of files open; here they are those of `Model/Text.lean`.
-/
namespace BitBoost
namespace Text

/-- The program with files that are texts (`none` is a file that cannot be read). -/
def env (F : FP) (M : Libm) (seed : Nat → Rng) (files : List Char → Option (List Char)) : Cli.Env where
  F := F
  M := M
  pf := parseF32 F
  seed := seed
  file := fun path delim hasHeader => (files path).map fun text =>
    let p := items F hasHeader (records (Char.ofNat delim) text)
    ⟨p.1, p.2⟩

end Text
end BitBoost
