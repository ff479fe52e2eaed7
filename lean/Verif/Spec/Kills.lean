import Verif.Spec.Lsp
import Verif.Spec.Complete

/-!
# Specification: the messages that stop the language server, and the requests it answers
-/

namespace Teal.Lsp.Spec

open Teal Teal.Lsp Teal.Spec

/-- The text cannot be analysed (see C17), in whatever order maps are visited. -/
def Panics (addrOk : Bytes → Bool) (t : Bytes) : Prop := ∀ mp, process ⟨addrOk, mp⟩ t = none

/-- The request has document `u` analysed. -/
inductive Analyses (u : Bytes) : Call → Prop
  | query (q : Query) : Analyses u (.query (.given (u, q)))
  | diagnostic : Analyses u (.diagnostic (.given u))
  | versionUpdate (v : Nat) : Analyses u (.executeCommand (.given (some [.versionUpdate u v])))
  | labelRemove (n : Bytes) : Analyses u (.executeCommand (.given (some [.labelRemove u n])))
  | labelCreate (n : Bytes) : Analyses u (.executeCommand (.given (some [.labelCreate u n])))

/-- The request asks about a line before the first one. -/
inductive BeforeText : Query → Prop
  | completion (p : Pos) (h : p.line < 0) : BeforeText (.completion p)
  | hover (p : Pos) (h : p.line < 0) : BeforeText (.hover p)
  | inlayHint (r : Rg) (h : r.start.line < 0) (hr : r.start.line ≤ r.stop.line) : BeforeText (.inlayHint r)
  | codeAction (r : Rg) (h : r.start.line < 0) (hr : r.start.line ≤ r.stop.line) : BeforeText (.codeAction r)

/-- The position is on an operand (and not on the opcode) that should be a field and is a negative number. -/
def OnNegativeField (text : Bytes) (p : Pos) : Prop :=
  ∃ (k : Nat) (w : Token) (rest : List Token) (i : Nat) (t : Token) (n : Int),
    p.line = k ∧ words (readTokens text).1 k = w :: rest ∧ ¬ ((w.b : Int) ≤ p.character ∧ p.character ≤ w.e) ∧
    rest[i]? = some t ∧ ((t.b : Int) ≤ p.character ∧ p.character ≤ t.e) ∧
    (∀ (j : Nat) t', j < i → rest[j]? = some t' → ¬ ((t'.b : Int) ≤ p.character ∧ p.character ≤ t'.e)) ∧
    w.v ∉ ecOps ∧ (∃ m name, TableName w.v i m name) ∧ SignedDecimal t.v n ∧ -9223372036854775808 ≤ n ∧ n < 0

/-- What stops a server that has received `ms` and no request to shut down. -/
inductive Kills (addrOk : Bytes → Bool) (ms : List Msg) : Call → Prop
  /-- messages without parameters -/
  | didOpen : Kills addrOk ms (.didOpen .missing)
  | didChange : Kills addrOk ms (.didChange .missing)
  | didClose : Kills addrOk ms (.didClose .missing)
  | executeCommand : Kills addrOk ms (.executeCommand .missing)
  | noQuery : Kills addrOk ms (.query .missing)
  | noDiagnostic : Kills addrOk ms (.diagnostic .missing)
  /-- changes of no document -/
  | nowhere (chs : List (Option Bytes)) (h : chs ≠ []) : Kills addrOk ms (.didChange (.given (none, chs)))
  /-- a change that is `null`, of an open document -/
  | null (u t : Bytes) (chs : List (Option Bytes)) (hu : Holds ms u t) (h : none ∈ chs) :
      Kills addrOk ms (.didChange (.given (some u, chs)))
  /-- a request that has a text analysed for which that panics -/
  | text (u t : Bytes) (c : Call) (hu : Holds ms u t) (hp : Panics addrOk t) (h : Analyses u c) : Kills addrOk ms c
  /-- a request about lines before the first one -/
  | line (u t : Bytes) (q : Query) (hu : Holds ms u t) (h : BeforeText q) : Kills addrOk ms (.query (.given (u, q)))
  /-- a hover over a negative number -/
  | number (u t : Bytes) (p : Pos) (hu : Holds ms u t) (h : OnNegativeField t p) :
      Kills addrOk ms (.query (.given (u, .hover p)))

/-- The requests that are answered by a server that has received `ms` and no request to shut down, unless they
stop it. -/
inductive Replied (ms : List Msg) : Call → Prop
  | shutdown : Replied ms .shutdown
  | «initialize» (p : Params (Option Options)) (h : p ≠ .bad) : Replied ms (.initialize p)
  | diagnostic (u : Bytes) : Replied ms (.diagnostic (.given u))
  | query (u t : Bytes) (q : Query) (hu : Holds ms u t) : Replied ms (.query (.given (u, q)))
  | unknownCommand (name : Bytes) : Replied ms (.unknownCommand name)

end Teal.Lsp.Spec
