/-! # Ranges and semantic tokens (`range.go`, `semantics.go`) -/

namespace Teal

/-- The four accessors of `Range` (range.go:3-8). -/
structure Range where
  startLine : Int
  startCharacter : Int
  endLine : Int
  endCharacter : Int
deriving DecidableEq, Repr

/-- `Overlaps` (range.go:10-13). -/
def Overlaps (a b : Range) : Bool :=
  decide (a.startCharacter ≤ b.endCharacter) && decide (b.startCharacter ≤ a.endCharacter) &&
    decide (a.startLine ≤ b.endLine) && decide (b.startLine ≤ a.endLine)

/-- `SemanticToken` (semantics.go:5-11). -/
structure SemanticToken where
  line : Int
  index : Int
  length : Int
  type : Int
  modifiers : Int
deriving DecidableEq, Repr

/-- `SemanticTokens.Less` (semantics.go:45-54), on the two tokens. -/
def SemanticToken.less (ti tj : SemanticToken) : Bool :=
  if ti.line = tj.line then decide (ti.index < tj.index) else decide (ti.line < tj.line)

/-- Go's conversion `uint32(x)`: reduction modulo 2^32. -/
def toUint32 (x : Int) : Nat := (x % 4294967296).toNat

/-- The loop of `Encode` (semantics.go:21-37) on the sorted tokens. -/
def encodeLoop (prev : SemanticToken) : List SemanticToken → List Nat
  | [] => []
  | st :: t =>
    toUint32 (st.line - prev.line) ::
    (if st.line = prev.line then toUint32 (st.index - prev.index) else toUint32 st.index) ::
    toUint32 st.length :: toUint32 st.type :: toUint32 st.modifiers :: encodeLoop st t

/-- `SemanticTokens.Encode` (semantics.go:15-40).  `sort` stands for `sort.Sort(t)` with the
`Len`/`Less`/`Swap` of semantics.go:42-60; only its contract is used (see `Spec.SortsBy`). -/
def semEncode (sort : List SemanticToken → List SemanticToken) (t : List SemanticToken) :
    List Nat :=
  encodeLoop { line := 0, index := 0, length := 0, type := 0, modifiers := 0 } (sort t)

end Teal
