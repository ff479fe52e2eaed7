import Verif.Spec.Source

/-!
# Specification: lines with too many words

A line with more words than its instruction takes has two entries in the listing, the second of which is
empty.  Everything behind it is one entry further on.
-/

namespace Teal.Spec

open Teal

/-- The result says that line `k` has too many values. -/
def Overlong (r : ProcessResult) (k : Nat) : Prop := ∃ d ∈ r.diagnostics, d.kind = .parse .tooManyValues ∧ d.l = k

instance (r : ProcessResult) (k : Nat) : Decidable (Overlong r k) := by unfold Overlong; infer_instance

/-- How many of the lines in front of line `k` have too many values. -/
def overlongBefore (r : ProcessResult) : Nat → Nat
  | 0 => 0
  | k + 1 => overlongBefore r k + if Overlong r k then 1 else 0

/-- The entry of the listing that belongs to line `k`. -/
def entryOf (r : ProcessResult) (k : Nat) : Nat := k + overlongBefore r k

/-- Line `k` of `src` begins with the label `n` and a colon. -/
def DefinesOn (src : Bytes) (k : Nat) (n : Bytes) : Prop :=
  n ≠ [] ∧ ∃ t, (words (readTokens src).1 k).head? = some t ∧ t.v = n ++ [chColon]

end Teal.Spec
