import Verif.Model.Fields

/-!
# Named integer constants (`go_algorand.go`) and `readConstInt` (`parser.go`)
-/

namespace Teal

/-- `TxnTypeNames` (go_algorand.go:857-865), with the values of
internal/protocol/go_algorand_txntype.go:26-50. -/
def txnTypeNames : List Bytes :=
  [b!"unknown", b!"pay", b!"keyreg", b!"acfg", b!"axfer", b!"afrz", b!"appl"]

/-- `TypeNameDescriptions` (go_algorand.go:1715-1723). -/
def typeNameDescriptions : List (Bytes × Bytes) :=
  [(b!"unknown", b!"Unknown type. Invalid transaction"),
   (b!"pay", b!"Payment"),
   (b!"keyreg", b!"KeyRegistration"),
   (b!"acfg", b!"AssetConfig"),
   (b!"axfer", b!"AssetTransfer"),
   (b!"afrz", b!"AssetFreeze"),
   (b!"appl", b!"ApplicationCall")]

/-- The first loop of go_algorand.go:1816-1819: name ↦ index. -/
def txnTypeIndex (m : GoMap Nat) : Nat → List Bytes → GoMap Nat
  | _, [] => m
  | i, tt :: rest => txnTypeIndex (m.set tt i) (i + 1) rest

/-- The second loop, go_algorand.go:1820-1822, over the map `TypeNameDescriptions` in some
order (`descriptions`): Go leaves the order of map iteration open.  Reading a missing key
gives 0. -/
def txnTypeDescribe (m : GoMap Nat) (descriptions : List (Bytes × Bytes)) : GoMap Nat :=
  descriptions.foldl (fun m kv => m.set kv.2 ((m.get kv.1).getD 0)) m

/-- `txnTypeMap` (go_algorand.go:1816-1822) for an iteration order of the descriptions. -/
def txnTypeMap (descriptions : List (Bytes × Bytes)) : GoMap Nat :=
  txnTypeDescribe (txnTypeIndex [] 0 txnTypeNames) descriptions

/-- `_OnCompletionConstType_name` (go_algorand.go:2081). -/
def onCompletionText : Bytes := b!"NoOpOptInCloseOutClearStateUpdateApplicationDeleteApplication"

/-- `_OnCompletionConstType_index` (go_algorand.go:2083). -/
def onCompletionIndex : List Nat := [0, 4, 9, 17, 27, 44, 61]

/-- `OnCompletionConstType.String` (go_algorand.go:2085-2090) within its table. -/
def onCompletionStr (i : Nat) : Bytes :=
  (onCompletionText.take (onCompletionIndex.getD (i + 1) 0)).drop (onCompletionIndex.getD i 0)

/-- `onCompletionMap` (go_algorand.go:1824-1829); the constants `NoOp`…`DeleteApplication`
are 0…5 (internal/transactions/go_algorand_application.go:27-51). -/
def onCompletionMap : GoMap Nat :=
  (List.range 6).foldl (fun m oc => m.set (onCompletionStr oc) oc) []

/-- `readConstInt` (parser.go:329-346) of the text of the current argument; `descriptions` is
the order in which `init` visited `TypeNameDescriptions`. -/
def readConstIntIn (descriptions : List (Bytes × Bytes)) (s : Bytes) : Option Nat :=
  match (txnTypeMap descriptions).get s with
  | some i => some i
  | none =>
    match onCompletionMap.get s with
    | some oc => some oc
    | none => parseUint0 64 s

/-- `readConstInt` with the map filled in source order; `readConstIntIn` does not depend on
the order (`readConstIntIn_eq` in Lemmas/Consts). -/
def readConstInt (s : Bytes) : Option Nat := readConstIntIn typeNameDescriptions s

end Teal
