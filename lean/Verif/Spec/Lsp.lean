import Verif.Model.Lsp
import Verif.Spec.Source
import Verif.Spec.Numbers

/-!
# What an editor relies on when it talks to the language server

In terms of the messages sent and received.
-/

namespace Teal.Lsp.Spec

open Teal Teal.Lsp

/-- The message opens document `u` with text `t`. -/
def Opens (m : Msg) (u t : Bytes) : Prop :=
  m.response = false ∧ m.call = .didOpen (.given (u, t))

/-- The message changes document `u`; the last of its changes makes the text `t`. -/
def Changes (m : Msg) (u t : Bytes) : Prop :=
  m.response = false ∧ ∃ chs, m.call = .didChange (.given (some u, chs)) ∧ chs.getLast? = some (some t)

/-- The message closes document `u`. -/
def Closes (m : Msg) (u : Bytes) : Prop := m.response = false ∧ m.call = .didClose (.given u)

/-- The message is about the text of document `u`. -/
def Touches (m : Msg) (u : Bytes) : Prop := Closes m u ∨ ∃ t, Opens m u t ∨ Changes m u t

/-- After the messages `ms`, document `u` is open and its text is `t`: the last message about it
opened it with `t`, or changed it to `t` while it was open. -/
inductive Holds : List Msg → Bytes → Bytes → Prop
  | opened (pre post : List Msg) (m : Msg) (u t : Bytes) (hm : Opens m u t)
      (hpost : ∀ m' ∈ post, ¬ Touches m' u) : Holds (pre ++ m :: post) u t
  | changed (pre post : List Msg) (m : Msg) (u t₀ t : Bytes) (hpre : Holds pre u t₀) (hm : Changes m u t)
      (hpost : ∀ m' ∈ post, ¬ Touches m' u) : Holds (pre ++ m :: post) u t

/-- A request about document `u`. -/
inductive Asks : Msg → Bytes → Prop
  | query (id u : Bytes) (q : Query) : Asks ⟨false, id, .query (.given (u, q))⟩ u
  | diagnostic (id u : Bytes) : Asks ⟨false, id, .diagnostic (.given u)⟩ u
  | versionUpdate (id u : Bytes) (v : Nat) :
      Asks ⟨false, id, .executeCommand (.given (some [.versionUpdate u v]))⟩ u
  | valueReplace (id u : Bytes) (r : Rg) (v : Bytes) :
      Asks ⟨false, id, .executeCommand (.given (some [.valueReplace u r v]))⟩ u
  | lineRemove (id u : Bytes) (l : Int) :
      Asks ⟨false, id, .executeCommand (.given (some [.lineRemove u l]))⟩ u
  | labelRemove (id u n : Bytes) :
      Asks ⟨false, id, .executeCommand (.given (some [.labelRemove u n]))⟩ u
  | labelCreate (id u n : Bytes) :
      Asks ⟨false, id, .executeCommand (.given (some [.labelCreate u n]))⟩ u

/-- The message is an `initialize` request. -/
def isInit (m : Msg) : Bool :=
  !m.response && match m.call with
    | .initialize _ => true
    | _ => false

/-- What a server writes in reaction to the last message, and whether it still runs.  The ids of
its own requests count from 1 over the whole session and are left out. -/
def forgetId : Sent → Sent
  | .applyEdit _ label u es => .applyEdit [] label u es
  | s => s

/-- What was written, without the ids of the server's own requests. -/
def reaction (h : Host) (ms : List (Choice × Msg)) (x : Choice × Msg) : List Sent × Bool :=
  (((run h (ms ++ [x])).sent.drop (run h ms).sent.length).map forgetId, (run h (ms ++ [x])).crashed)

/-- The server still reads messages. -/
def Running (h : Host) (ms : List (Choice × Msg)) : Prop :=
  (run h ms).crashed = false ∧ (run h ms).st.exit = false

/-- A shutdown request. -/
def IsShutdown (m : Msg) : Prop := m.response = false ∧ m.call = .shutdown

/-- An exit notification. -/
def IsExit (m : Msg) : Prop := m.response = false ∧ m.call = .exit

/-- The notifications of the protocol the server knows. -/
inductive IsNotification : Call → Prop
  | initialized : IsNotification .initialized
  | exit : IsNotification .exit
  | didOpen (p : Params (Bytes × Bytes)) : IsNotification (.didOpen p)
  | didChange (p : Params (Option Bytes × List (Option Bytes))) : IsNotification (.didChange p)
  | didSave (ok : Bool) : IsNotification (.didSave ok)
  | didClose (p : Params Bytes) : IsNotification (.didClose p)
  | cancelRequest : IsNotification .cancelRequest

/-- The id a response answers. -/
def responseTo : Sent → Option Bytes
  | .reply id _ => some id
  | .fail id _ => some id
  | .applyEdit .. => none

/-- The id of a request of the server. -/
def requestId : Sent → Option Bytes
  | .applyEdit id .. => some id
  | _ => none

/-- The lines in the parameters of a request that is answered from one line. -/
def Query.lines : Query → List Int
  | .completion p => [p.line]
  | .hover p => [p.line]
  | .inlayHint r => [r.start.line]
  | .codeAction r => [r.start.line]
  | _ => []

/-- The request is a hover over a word of the text that is a negative number. -/
def OverNegative (text : Bytes) : Query → Prop
  | .hover p => ∃ w ∈ (readTokens text).1, ∃ n : Int, (w.l : Int) = p.line ∧ (w.b : Int) ≤ p.character ∧
      p.character ≤ w.e ∧ Teal.Spec.SignedDecimal w.v n ∧ n < 0
  | _ => False

/-- The notifications accepted after shutdown. -/
inductive StillAccepted : Call → Prop
  | initialized : StillAccepted .initialized
  | exit : StillAccepted .exit
  | didOpen (p : Params (Bytes × Bytes)) : StillAccepted (.didOpen p)
  | didChange (p : Params (Option Bytes × List (Option Bytes))) : StillAccepted (.didChange p)
  | didSave (ok : Bool) : StillAccepted (.didSave ok)

/-- The requests that a server having received `ms` has to answer with a result: they are known
and well formed, the document is open, no line is negative, and the cursor is not on a negative
number. -/
inductive Answerable (ms : List Msg) : Msg → Prop
  | shutdown (id : Bytes) : Answerable ms ⟨false, id, .shutdown⟩
  | «initialize» (id : Bytes) (o : Option Options) : Answerable ms ⟨false, id, .initialize (.given o)⟩
  | diagnostic (id u : Bytes) : Answerable ms ⟨false, id, .diagnostic (.given u)⟩
  | query (id u t : Bytes) (q : Query) (hu : Holds ms u t) (hq : ∀ l ∈ Query.lines q, 0 ≤ l)
      (hn : ¬ OverNegative t q) :
      Answerable ms ⟨false, id, .query (.given (u, q))⟩

end Teal.Lsp.Spec
