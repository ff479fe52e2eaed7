import Verif.Props.Scan

/-!
# When the scanner ends
-/

namespace Teal.Props
open Teal.Spec Teal.Cli Teal.CliSpec

theorem scanTxn_ends {env : Env} {operand : Diag → Bytes} {node : Node} {round i : Nat} {tx : Txn} {p src : Bytes} (hd : Deploys tx p)
    (hs : node.disassemble p = .ok src) (hp : process env src = none) : scanTxn env operand node round i tx = none := by
  unfold scanTxn
  rw [if_neg (by simpa using hd.1), hd.2]
  dsimp only
  rw [hs]
  dsimp only
  rw [hp]
  rfl

theorem scanTxns_ends {env : Env} {operand : Diag → Bytes} {node : Node} {round : Nat} {txs : List Txn} {tx : Txn} {p src : Bytes}
    (ht : tx ∈ txs) (hd : Deploys tx p) (hs : node.disassemble p = .ok src) (hp : process env src = none) (k : Nat) :
    scanTxns env operand node round k txs = none := by
  induction txs generalizing k with
  | nil => cases ht
  | cons t txs ih =>
    unfold scanTxns
    rcases List.mem_cons.1 ht with rfl | ht
    · rw [scanTxn_ends hd hs hp]
    · split
      · rfl
      · rw [ih ht]
        rfl

/-- **C118** (exactly.)  The scanner ends before it has told about all blocks if and only if the node disassembles
a program to a text for which `Process` panics (C17 says which). -/
theorem C118_exact {env : Env} {operand : Diag → Bytes} {node : Node} (bs : List Block) :
    scan env operand node bs = none ↔
      ∃ b ∈ bs, ∃ tx ∈ b.payset, ∃ p src, Deploys tx p ∧ node.disassemble p = .ok src ∧ process env src = none := by
  constructor
  · intro h
    refine Classical.byContradiction fun hno => ?_
    obtain ⟨ss, h1, -⟩ := C118_partial (operand := operand) bs fun b hb tx ht p src hd hs hp => hno ⟨b, hb, tx, ht, p, src, hd, hs, hp⟩
    rw [h] at h1
    cases h1
  · rintro ⟨b, hb, tx, ht, p, src, hd, hs, hp⟩
    induction bs with
    | nil => cases hb
    | cons c bs ih =>
      unfold scan
      rcases List.mem_cons.1 hb with rfl | hb
      · rw [scanTxns_ends ht hd hs hp]
      · split
        · rfl
        · rw [ih hb]
          rfl

/-- A node that disassembles every program to the text of `C17_false`, and a block with a program. -/
example : ∃ b ∈ [(⟨7, [⟨b!"appl", some [1]⟩]⟩ : Block)], ∃ tx ∈ b.payset, ∃ p src, Deploys tx p ∧
    (⟨fun _ => .ok b!"pop 1\na:", fun _ => []⟩ : Node).disassemble p = .ok src ∧ process sampleEnv src = none :=
  ⟨_, List.mem_singleton.2 rfl, _, List.mem_singleton.2 rfl, [1], _, ⟨rfl, rfl⟩, rfl, by decide +kernel⟩

end Teal.Props
