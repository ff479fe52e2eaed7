import Verif.Model.Basic

/-! # Editor documents (`lsp/doc.go`) -/

namespace Teal

/-- The loop of `splitLines` (lsp/doc.go:26-54): `p` is the start of the current line, `i` the
current index, `res` the lines so far.  `fuel` bounds the iterations; each one advances `i`.
Out of fuel cannot happen for `fuel > len(s) - i`; the value is then irrelevant.
The block lsp/doc.go:56-58 after the loop is the last part of the exit branch. -/
def splitLoop (s : Bytes) : Nat → Nat → Nat → List Bytes → List Bytes
  | 0, _, _, res => res
  | fuel + 1, p, i, res =>
    let l := s.length
    if i = l then
      let res := if p = l then res ++ [[]] else res
      if p < l then res ++ [(s.drop p).take (i - p)] else res
    else
      let c := s.getD i 0
      let split := c = chCR ∨ c = chLF
      let res := if split then res ++ [(s.drop p).take (i - p)] else res
      let i := if c = chCR ∧ i + 1 < l ∧ s.getD (i + 1) 0 = chLF then i + 1 else i
      if split then splitLoop s fuel (i + 1) (i + 1) res
      else splitLoop s fuel p (i + 1) res

/-- `splitLines` (lsp/doc.go:19-61). -/
def splitLines (s : Bytes) : List Bytes := splitLoop s (s.length + 1) 0 0 []

end Teal
