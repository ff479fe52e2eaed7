import Verif.Props.Process
import Verif.Model.Query
import Verif.Model.LangSpec
import Verif.Model.Vm
import Verif.Model.Doc

/-! # The repository's own unit tests, run on the model

These are tests, not proofs of properties: they check that the model agrees with the code on the inputs and outcomes that the
repository's `*_test.go` files fix.  They support the claim that the model is faithful; no theorem depends on them. -/

namespace Teal.Tests

open Teal Teal.Props

/-- The kinds and texts of the tokens of a source without lexer errors. -/
def lexed (s : Bytes) : Option (List (TokenType × Bytes)) :=
  if (readTokens s).2 = [] then some ((readTokens s).1.map fun t => (t.t, t.v)) else none

/-! ## lexer_test.go -/

example : lexed b!"\"\"" =
    some [(.value, b!"\"\"")] := by decide +kernel

example : lexed b!"byte \"escape\\\" sequences\\\"\"" =
    some [(.value, b!"byte"), (.value, b!"\"escape\" sequences\"\"")] := by decide +kernel

example : lexed b!"bytecblock 0x6f 0x65 0x70 0x6131 0x6132 0x6c74 0x73776170 0x6d696e74 0x74 0x7031 0x7032" =
    some [(.value, b!"bytecblock"), (.value, b!"0x6f"), (.value, b!"0x65"), (.value, b!"0x70"), (.value, b!"0x6131"), (.value, b!"0x6132"), (.value, b!"0x6c74"), (.value, b!"0x73776170"), (.value, b!"0x6d696e74"), (.value, b!"0x74"), (.value, b!"0x7031"), (.value, b!"0x7032")] := by decide +kernel

example : lexed b!"12345 0x123" =
    some [(.value, b!"12345"), (.value, b!"0x123")] := by decide +kernel

example : lexed b!"12345" =
    some [(.value, b!"12345")] := by decide +kernel

example : lexed b!"a12345" =
    some [(.value, b!"a12345")] := by decide +kernel

example : lexed b!"\r\n" =
    some [(.eol, b!"\r\n")] := by decide +kernel

example : lexed b!"\r" =
    some [(.eol, b!"\r")] := by decide +kernel

example : lexed b!"\n\r" =
    some [(.eol, b!"\n"), (.eol, b!"\r")] := by decide +kernel

example : lexed b!"\r\n\r\n" =
    some [(.eol, b!"\r\n"), (.eol, b!"\r\n")] := by decide +kernel

example : lexed b!"\r\n\n\r\n" =
    some [(.eol, b!"\r\n"), (.eol, b!"\n"), (.eol, b!"\r\n")] := by decide +kernel

example : lexed b!"" =
    some [] := by decide +kernel

example : lexed b!"#pragma version 8" =
    some [(.value, b!"#pragma"), (.value, b!"version"), (.value, b!"8")] := by decide +kernel

example : lexed b!"byte \"some multiword byte string\"" =
    some [(.value, b!"byte"), (.value, b!"\"some multiword byte string\"")] := by decide +kernel

/-! ## lsp/doc_test.go -/

example : splitLines b!"" = [b!""] := by decide +kernel

example : splitLines b!"\r" = [b!"", b!""] := by decide +kernel

example : splitLines b!"\r\n" = [b!"", b!""] := by decide +kernel

example : splitLines b!"\n" = [b!"", b!""] := by decide +kernel

example : splitLines b!"\n\n" = [b!"", b!"", b!""] := by decide +kernel

example : splitLines b!"\n\n\r" = [b!"", b!"", b!"", b!""] := by decide +kernel

example : splitLines b!"11\n22\n33" = [b!"11", b!"22", b!"33"] := by decide +kernel

example : splitLines b!"\n11\n22\n33" = [b!"", b!"11", b!"22", b!"33"] := by decide +kernel

example : splitLines b!"\n11\n22\n33\n" = [b!"", b!"11", b!"22", b!"33", b!""] := by decide +kernel

/-! ## parser_test.go -/

example : (opsGet b!"txn").map (·.name) = some b!"txn" := by decide +kernel

/-- examples/ok/b.teal -/
example : (process sampleEnv b!"#pragma version 4\nb app\n\nend:\nint 1\nretsub\n\napp:\n\ncallsub end").map (·.diagnostics) = some [] := by
  decide +kernel

/-- examples/ok/byte.teal -/
example : (process sampleEnv b!"byte base64 dGVzdA==\nbyte b64 dGVzdA==\nbyte base64(dGVzdA==)\nbyte base32 ORSXG5A=\nbyte b32 ORSXG5A=\nbyte b32(ORSXG5A=)\nbyte 0x74657374\nbyte \"\\x74\\x65\\x73\\x74\"\nbyte \"test\"\nbyte \"test test\"\nbyte \"test\\\"test\"").map (·.diagnostics) = some [] := by
  decide +kernel

/-- examples/ok/ec.teal -/
example : (process sampleEnv b!"#pragma version 9\n\nec_add BLS12_381_G1\nec_map_to BLS12_381_G2\nec_multi_exp BN254_G1\nec_pairing_check BN254_G1\nec_scalar_mul BN254_G2\nec_subgroup_check BLS12_381_G1").map (·.diagnostics) = some [] := by
  decide +kernel

/-- examples/ok/err.teal -/
example : (process sampleEnv b!"err").map (·.diagnostics) = some [] := by
  decide +kernel

/-- examples/ok/match.teal -/
example : (process sampleEnv b!"#pragma version 8\n\ntxn OnCompletion\nswitch noop optin closeout update delete\nb end\n\nnoop:\nint 0\nreturn\n\noptin:\nint 1\nreturn\n\ncloseout:\nint 2\nreturn\n\nupdate:\nint 3\nreturn\n\ndelete:\nint 4\nreturn\n\nend:\nbyte \"end\"").map (·.diagnostics) = some [] := by
  decide +kernel

/-- examples/ok/pushbytess.teal -/
example : (process sampleEnv b!"#pragma version 8\npushbytess \"1\" \"2\" \"3\"").map (·.diagnostics) = some [] := by
  decide +kernel

/-- examples/ok/pushints.teal -/
example : (process sampleEnv b!"#pragma version 8\npushints 1 2 3").map (·.diagnostics) = some [] := by
  decide +kernel

/-- examples/ok/simple.teal -/
example : (process sampleEnv b!"#pragma version 8\nint 1\nreturn").map (·.diagnostics) = some [] := by
  decide +kernel

/-- examples/err/byte.teal -/
example : (process sampleEnv b!"int 1\nbyte asd").any (fun r => !r.diagnostics.isEmpty) = true := by
  decide +kernel

/-- examples/err/byte2.teal -/
example : (process sampleEnv b!"\nbyte \"\\1\"").any (fun r => !r.diagnostics.isEmpty) = true := by
  decide +kernel

/-- examples/err/byte3.teal -/
example : (process sampleEnv b!"byte base64 dGVzdA=").any (fun r => !r.diagnostics.isEmpty) = true := by
  decide +kernel

/-- examples/err/diag.teal -/
example : (process sampleEnv b!"#pragma\n#pragma version\nint\n:\nb\n+\n\nb a\na:\nb a").any (fun r => !r.diagnostics.isEmpty) = true := by
  decide +kernel

/-- examples/err/infinite.teal -/
example : (process sampleEnv b!"infinite:\nb infinite").any (fun r => !r.diagnostics.isEmpty) = true := by
  decide +kernel

/-- examples/err/linter.teal -/
example : (process sampleEnv b!"#pragma version 8\n\nunused:\nint 1\n\nb justBeforeLabel\n// test comment\n\njustBeforeLabel:\nint 4\n\nempty:\n// comment\nb empty\n\ninfinite:\nint 1\nb infinite\n\nnoninfinite:\nint 1\nbnz outofloop\nb noninfinite\n\noutofloop:\n\nb nonexisting\nint 2\nint 3").any (fun r => !r.diagnostics.isEmpty) = true := by
  decide +kernel

/-- examples/err/redundantb.teal -/
example : (process sampleEnv b!"b a\na:\n").any (fun r => !r.diagnostics.isEmpty) = true := by
  decide +kernel

/-- examples/err/unused.teal -/
example : (process sampleEnv b!"a:\nb:\n").any (fun r => !r.diagnostics.isEmpty) = true := by
  decide +kernel

/-! ## process_test.go -/

example : (process sampleEnv []).isSome = true := by decide +kernel

example : (process sampleEnv b!"test_label:").map (·.redundants) = some [.label 0 b!"test_label"] := by decide +kernel

example : (process sampleEnv b!"b a\na:").map (·.redundants) = some [.b 0] := by decide +kernel

example : ((process sampleEnv b!"int ").bind fun r => (argAt r 0 4).bind fun (a, _) => a.map fun a =>
    (argVals id r a).any fun v => v.name == b!"DeleteApplication") = some true := by decide +kernel

example : (process sampleEnv b!"test_label:\ntest_label2:\nb test_label\n").map (fun r => r.symOrRefAt ⟨0, 0, 0, 0⟩) =
    some b!"test_label" := by decide +kernel

example : (process sampleEnv b!"test_label:\ntest_label2:\nb test_label\n").map (fun r => r.symOrRefAt ⟨1, 1, 1, 1⟩) =
    some b!"test_label2" := by decide +kernel

example : (process sampleEnv b!"test_label:\ntest_label2:\nb test_label\n").map (fun r => r.symOrRefAt ⟨2, 2, 2, 2⟩) =
    some b!"test_label" := by decide +kernel

example : Overlaps ⟨0, 0, 0, 0⟩ ⟨0, 0, 0, 0⟩ = true := by decide
example : Overlaps ⟨0, 0, 0, 0⟩ ⟨0, 1, 0, 1⟩ = false := by decide
example : Overlaps ⟨0, 1, 0, 1⟩ ⟨0, 1, 0, 1⟩ = true := by decide
example : Overlaps ⟨1, 1, 1, 1⟩ ⟨1, 1, 1, 1⟩ = true := by decide
example : Overlaps ⟨1, 1, 1, 2⟩ ⟨1, 1, 1, 1⟩ = true := by decide
example : Overlaps ⟨1, 1, 1, 2⟩ ⟨1, 2, 1, 2⟩ = true := by decide
example : Overlaps ⟨1, 1, 1, 2⟩ ⟨1, 0, 1, 0⟩ = false := by decide
example : Overlaps ⟨1, 1, 1, 2⟩ ⟨1, 3, 1, 3⟩ = false := by decide
example : Overlaps ⟨1, 1, 1, 2⟩ ⟨0, 1, 1, 1⟩ = true := by decide
example : Overlaps ⟨1, 1, 1, 2⟩ ⟨0, 2, 1, 2⟩ = true := by decide
example : Overlaps ⟨1, 1, 1, 2⟩ ⟨0, 0, 1, 0⟩ = false := by decide
example : Overlaps ⟨1, 1, 1, 2⟩ ⟨0, 3, 1, 3⟩ = false := by decide
example : Overlaps ⟨1, 1, 1, 2⟩ ⟨0, 1, 0, 1⟩ = false := by decide
example : Overlaps ⟨1, 1, 1, 2⟩ ⟨0, 2, 0, 2⟩ = false := by decide
example : Overlaps ⟨1, 1, 1, 2⟩ ⟨0, 0, 0, 0⟩ = false := by decide
example : Overlaps ⟨1, 1, 1, 2⟩ ⟨0, 3, 0, 3⟩ = false := by decide
example : Overlaps ⟨1, 1, 1, 2⟩ ⟨2, 1, 2, 1⟩ = false := by decide
example : Overlaps ⟨1, 1, 1, 2⟩ ⟨2, 2, 2, 2⟩ = false := by decide
example : Overlaps ⟨1, 1, 1, 2⟩ ⟨2, 0, 2, 0⟩ = false := by decide
example : Overlaps ⟨1, 1, 1, 2⟩ ⟨2, 3, 2, 3⟩ = false := by decide

/-! ## semantics_test.go -/

example : (semEncode id [
    ⟨0, 0, 1, 4, 0⟩, ⟨3, 19, 10, 2, 0⟩, ⟨4, 7, 4, 2, 0⟩, ⟨6, 4, 6, 1, 0⟩, ⟨8, 7, 4, 2, 0⟩]).length = 25 := by decide

/-! ## vm_test.go -/

/-- The loop of `Vm.Run` for at most `n` rounds. -/
def runVm : Nat → Vm → Option Vm
  | 0, _ => none
  | n + 1, v =>
    if v.branch = none ∨ v.error ≠ none then some v
    else match v.step with
      | none => none
      | some w => if w.triggered ≠ [] then some w else runVm n w

example : ((process sampleEnv b!"#pragma version 7\n\ttxn Sender\n\tbase64_decode StdEncoding").bind fun r =>
    runVm 1000 (Vm.new r.listing r.version)).isSome = true := by decide +kernel

example : ((process sampleEnv b!"\n\t#pragma version 8\n\ttxn ApplicationID\n\tbnz initialized\n\n\tbyte \"manager\"\n\ttxn Sender\n\tapp_global_put\n\tb end\n\n\tinitialized:\n\tbyte \"welcome back\"\n\tlog\n\n\tend:\n\tint 1\n\treturn\n\t").bind fun r =>
    runVm 1000 (Vm.new r.listing r.version)).isSome = true := by decide +kernel

example : ((process sampleEnv b!"main:\n\tb main").bind fun r =>
    runVm 1000 (Vm.new r.listing r.version)).isSome = true := by decide +kernel

/-! ## langspec_test.go -/

/-- What the test compares of an argument: kind, type, name and those of the nested argument. -/
structure Head where
  kind : Nat
  t : Bytes
  n : Bytes
  sub : Option (Nat × Bytes × Bytes)
deriving DecidableEq

def plainHead : Imm.Arg → Nat × Bytes × Bytes
  | .none => (0, [], [])
  | .field t n _ _ => (1, t, n)
  | .array _ _ => (2, [], [])
  | .var => (3, [], [])

def head (a : Imm.Arg) : Head :=
  ⟨(plainHead a).1, (plainHead a).2.1, (plainHead a).2.2, match a with | .field _ _ _ (some s) => some (plainHead s) | _ => none⟩

/-- The arguments of a note, each with its elements. -/
def shapes (s : Bytes) : Imm.Res (List (Head × List Head)) :=
  (Imm.tokenize s).bind fun l => .ok (l.map fun a => (head a, match a with | .array _ r => r.map head | _ => []))

example : shapes b!"{uint8 curve index}" = .ok [
    (⟨1, b!"uint8", b!"curve index", none⟩, [])] := by decide +kernel

example : shapes b!"{uint8 transaction group index} {uint8 transaction field index}" = .ok [
    (⟨1, b!"uint8", b!"transaction group index", none⟩, []),
    (⟨1, b!"uint8", b!"transaction field index", none⟩, [])] := by decide +kernel

example : shapes b!"{uint8 transaction group index} {uint8 transaction field index} {uint8 transaction field array index}" = .ok [
    (⟨1, b!"uint8", b!"transaction group index", none⟩, []),
    (⟨1, b!"uint8", b!"transaction field index", none⟩, []),
    (⟨1, b!"uint8", b!"transaction field array index", none⟩, [])] := by decide +kernel

example : shapes b!"{uint8 branch count} [{int16 branch offset, big-endian}, ...]" = .ok [
    (⟨1, b!"uint8", b!"branch count", none⟩, []),
    (⟨2, [], [], none⟩, [⟨1, b!"int16", b!"branch offset, big-endian", none⟩, ⟨3, [], [], none⟩])] := by decide +kernel

example : shapes b!"{varuint count} [({varuint value length} bytes), ...]" = .ok [
    (⟨1, b!"varuint", b!"count", none⟩, []),
    (⟨2, [], [], none⟩, [⟨1, [], b!"bytes", some (1, b!"varuint", b!"value length")⟩, ⟨3, [], [], none⟩])] := by decide +kernel

end Teal.Tests
