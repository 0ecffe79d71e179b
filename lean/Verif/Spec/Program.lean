import Verif.Spec.Text
import Verif.Model.Config
/-! Vocabulary for statements about the command line program on texts. -/
namespace BitBoost.Spec

/-- A text that is a table of numbers with `w` columns: `table` are its numbers (without the header). -/
structure Holds (F : FP) (cfg : Config) (text : List Char) (w : Nat) (table : List (List Num)) : Prop where
  delim : Delim (Char.ofNat cfg.csvDelimiter)
  written : ∃ (header : Option (List (List Char))) (body : List (List (List Char))),
    header.isSome = cfg.csvHasHeader ∧ TableText (Char.ofNat cfg.csvDelimiter) (header.toList ++ body) text ∧
    List.Forall₂ (List.Forall₂ (NumberText F)) body table ∧ ∀ r ∈ header.toList ++ body, r.length = w

end BitBoost.Spec
