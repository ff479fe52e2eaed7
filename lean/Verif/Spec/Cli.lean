import Verif.Model.Cli
import Verif.Spec.Wire
import Verif.Spec.Frame

/-!
# Command lines as users write them
-/

namespace Teal.CliSpec

open Teal Teal.Cli

/-- The words of one option with a value: `-name=value`, `--name=value`, `-name value`, `--name value`. -/
inductive Option1 (n v : Bytes) : List Bytes → Prop
  | joined : Option1 n v [45 :: n ++ 61 :: v]
  | joined2 : Option1 n v [45 :: 45 :: n ++ 61 :: v]
  | apart : Option1 n v [45 :: n, v]
  | apart2 : Option1 n v [45 :: 45 :: n, v]

/-- A word that is no option: it does not begin with a dash, or is just a dash. -/
def Plain (w : Bytes) : Prop := w.head? ≠ some 45 ∨ w = b!"-"

/-- A command line with these values of options in this order.  Options end with the line, with `--` or
with the first word that is no option; what follows is not looked at. -/
inductive Line (names : List Bytes) : List Bytes → List (Bytes × Bytes) → Prop
  | done : Line names [] []
  | dashes (ws : List Bytes) : Line names (b!"--" :: ws) []
  | plain {w : Bytes} (ws : List Bytes) : Plain w → Line names (w :: ws) []
  | option {n v : Bytes} {o ws : List Bytes} {l : List (Bytes × Bytes)} : n ∈ names → Option1 n v o → Line names ws l →
      Line names (o ++ ws) ((n, v) :: l)

/-- The value of an option: what the last one with this name says, or the default. -/
inductive Value (l : List (Bytes × Bytes)) (n default : Bytes) : Bytes → Prop
  | last {a b : List (Bytes × Bytes)} {v : Bytes} : l = a ++ (n, v) :: b → (∀ x ∈ b, x.1 ≠ n) → Value l n default v
  | default : (∀ x ∈ l, x.1 ≠ n) → Value l n default default

/-- A file for the trace is asked for unless its name is empty. -/
def Trace (l : List (Bytes × Bytes)) (default : Bytes) (t : Option Bytes) : Prop :=
  ∃ f, Value l b!"debug" default f ∧ (f = [] → t = none) ∧ (f ≠ [] → t = some f)

/-- A connection is asked for if neither the network, by default `tcp`, nor the address is empty. -/
def Connection (l : List (Bytes × Bytes)) (c : Option (Bytes × Bytes)) : Prop :=
  ∃ n a, Value l b!"net" b!"tcp" n ∧ Value l b!"addr" [] a ∧ (n = [] ∨ a = [] → c = none) ∧ (n ≠ [] → a ≠ [] → c = some (n, a))

/-- What a command line of tealsp asks for. -/
inductive Asks : List Bytes → Serving → Prop
  | debug {ws : List Bytes} {l : List (Bytes × Bytes)} {t : Option Bytes} : Line [b!"debug"] ws l → Trace l [] t →
      Asks (b!"dbg" :: ws) ⟨.debug, none, t⟩
  | language {ws : List Bytes} {l : List (Bytes × Bytes)} {c : Option (Bytes × Bytes)} {t : Option Bytes} : ws.head? ≠ some b!"dbg" →
      Line [b!"net", b!"addr", b!"debug"] ws l → Connection l c → Trace l [] t → Asks ws ⟨.language, c, t⟩

/-- The connection can be made and the file created. -/
def Possible (w : World) (s : Serving) : Prop :=
  (∀ n a, s.connection = some (n, a) → w.dials n a = true) ∧ ∀ f, s.trace = some f → w.creates f = true

/-- A frame of the input: header fields, body, and the id and the call the body asks for, if it asks for something. -/
abbrev Packet := List (Bytes × Bytes) × Bytes × Option (Json × Lsp.Call)

/-- The frame is well formed, and its body is as it is said to be. -/
def Sound (f : Packet) : Prop :=
  Frame.Spec.Valid f.1 f.2.1 ∧ f.2.1.length < 2 ^ 63 ∧ WireSpec.Carries f.2.1 f.2.2

/-- The bytes of the frames. -/
def input (fs : List Packet) : Bytes := fs.flatMap fun f => Frame.Spec.frameBytes f.1 f.2.1

/-- The messages in the frames, with the choices that are made when frame `i` is handled. -/
def messages (choices : Nat → Lsp.Choice) (fs : List Packet) : List (Lsp.Choice × Lsp.Msg) :=
  fs.zipIdx.filterMap fun p => p.1.2.2.map fun m => (choices p.2, { id := m.1.text, call := m.2 })

end Teal.CliSpec
