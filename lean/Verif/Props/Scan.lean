import Verif.Spec.Scan
import Verif.Props.Tools
import Verif.Lemmas.Display

/-!
# Properties C118 and C119: the experiments
-/

namespace Teal.Props
open Teal.Spec Teal.Cli Teal.CliSpec

theorem scanDiag_is (operand : Diag → Bytes) (round i : Nat) (d : Diag) : FindingLine operand round i d (scanDiag operand round i d) := by
  refine ⟨_, _, _, d.kind.text (operand d), formatUint_decimal _, formatUint_decimal _, formatUint_decimal _, ?_, by unfold scanDiag; simp⟩
  by_cases ho : OfOperand d.kind
  · exact .inr ⟨ho, operand_text _ ho⟩
  · exact .inl (tells_text _ ho)

theorem scanTxn_told {env : Env} {operand : Diag → Bytes} {node : Node} {round i : Nat} {tx : Txn}
    (hp : ∀ p src, Deploys tx p → node.disassemble p = .ok src → process env src ≠ none) :
    ∃ s, scanTxn env operand node round i tx = some s ∧ Told env operand node round i tx s := by
  unfold scanTxn
  split
  · rename_i h
    exact ⟨[], rfl, .other fun ⟨p, h1, _⟩ => h h1⟩
  · rename_i h
    have h := Classical.not_not.1 h
    split
    · rename_i h2
      exact ⟨[], rfl, .other fun ⟨p, _, h1⟩ => by rw [h2] at h1; cases h1⟩
    · rename_i p h2
      split
      · rename_i e he
        exact ⟨_, rfl, .failed ⟨h, h2⟩ he (formatUint_decimal _)⟩
      · rename_i src he
        cases hr : process env src with
        | none => exact absurd hr (hp p src ⟨h, h2⟩ he)
        | some r =>
          refine ⟨_, rfl, .found ⟨h, h2⟩ he (formatUint_decimal _) hr ?_⟩
          generalize r.diagnostics = ds
          induction ds with
          | nil => exact .nil
          | cons d ds ih => exact .cons (scanDiag_is _ _ _ d) ih

theorem scanTxns_told {env : Env} {operand : Diag → Bytes} {node : Node} {round : Nat} (txs : List Txn)
    (hp : ∀ tx ∈ txs, ∀ p src, Deploys tx p → node.disassemble p = .ok src → process env src ≠ none) (k : Nat) :
    ∃ ss : List Bytes, ss.length = txs.length ∧ scanTxns env operand node round k txs = some ss.flatten ∧
      ∀ i tx t, txs[i]? = some tx → ss[i]? = some t → Told env operand node round (k + i) tx t := by
  induction txs generalizing k with
  | nil => exact ⟨[], rfl, rfl, by simp⟩
  | cons tx txs ih =>
    obtain ⟨s, h1, h2⟩ := scanTxn_told (round := round) (i := k) (operand := operand) (hp tx (by simp))
    obtain ⟨ss, h3, h4, h5⟩ := ih (fun tx h => hp tx (by simp [h])) (k + 1)
    refine ⟨s :: ss, by simp [h3], ?_, ?_⟩
    · unfold scanTxns
      rw [h1]
      dsimp only
      rw [h4]
      rfl
    · intro i tx' t e1 e2
      cases i with
      | zero =>
        simp only [List.getElem?_cons_zero, Option.some.injEq] at e1 e2
        subst e1; subst e2
        exact h2
      | succ i =>
        have := h5 i tx' t (by simpa using e1) (by simpa using e2)
        rwa [Nat.add_assoc, Nat.add_comm 1 i] at this

/-- C118: the scanner tells something about each block that is delivered and each transaction in it, in order: for each program the
node can disassemble its length and one line for each diagnostic, with the block, the transaction and the line; for a program it cannot
disassemble that it failed; for other transactions nothing.  It is partial because `Process` panics for some texts (C17). -/
theorem C118_partial {env : Env} {operand : Diag → Bytes} {node : Node} (bs : List Block)
    (hp : ∀ b ∈ bs, ∀ tx ∈ b.payset, ∀ p src, Deploys tx p → node.disassemble p = .ok src → process env src ≠ none) :
    ∃ ss, scan env operand node bs = some ss.flatten ∧ List.Forall₂ (BlockTold env operand node) bs ss := by
  induction bs with
  | nil => exact ⟨[], rfl, .nil⟩
  | cons b bs ih =>
    obtain ⟨ss, h1, h2⟩ := ih fun b h => hp b (by simp [h])
    obtain ⟨ts, h3, h4, h5⟩ := scanTxns_told (operand := operand) (round := b.round) b.payset (hp b (by simp)) 0
    refine ⟨(b!"Block: " ++ formatUint b.round ++ b!" at " ++ node.now b.round ++ b!"\n" ++ ts.flatten) :: ss, ?_,
      .cons ⟨_, ts, formatUint_decimal _, h3, ?_, rfl⟩ h2⟩
    · unfold scan
      rw [h4]
      dsimp only
      rw [h1]
      rfl
    · intro i tx t e1 e2
      have := h5 i tx t e1 e2
      rwa [Nat.zero_add] at this

/-- C118: what the scanner prints about a program shows whether something is found in it. -/
theorem C118_silent {env : Env} {operand : Diag → Bytes} {node : Node} {round i : Nat} {tx : Txn} {p src s n : Bytes} {r : ProcessResult}
    (hd : Deploys tx p) (hs : node.disassemble p = .ok src) (hr : process env src = some r) (ht : Told env operand node round i tx s)
    (hn : DecimalOf p.length n) : s = b!"Program length: " ++ n ++ b!"\n" ↔ r.diagnostics = [] := by
  cases ht with
  | other h => exact absurd ⟨p, hd⟩ h
  | failed hd' he _ =>
    have := hd.2.symm.trans hd'.2
    cases this
    rw [hs] at he; cases he
  | found hd' hs' hn' hr' hl =>
    have := hd.2.symm.trans hd'.2
    cases this
    rw [hs] at hs'; cases hs'
    rw [hr] at hr'; cases hr'
    rw [decimal_spelling hn hn']
    constructor
    · intro h
      have h := List.append_cancel_left (h.trans (List.append_nil _).symm)
      generalize r.diagnostics = ds at hl
      cases hl with
      | nil => rfl
      | cons hd _ =>
        obtain ⟨a, b, l, m, -, -, -, -, rfl⟩ := hd
        have := congrArg List.length h
        simp at this
    · intro h
      rw [h] at hl
      cases hl
      simp

/-- A chain with two blocks. -/
def sampleNode : Node where
  disassemble p := if p = [8, 129, 1] then .ok b!"#pragma version 8\nb x" else .error b!"invalid"
  now _ := b!"noon"

example : scan sampleEnv (fun _ => []) sampleNode [⟨7, [⟨b!"pay", none⟩, ⟨b!"appl", some [8, 129, 1]⟩]⟩, ⟨8, [⟨b!"appl", none⟩, ⟨b!"appl", some [1]⟩]⟩] =
    some b!"Block: 7 at noon\nProgram length: 3\n7:1:1: missing label: \"x\"\nBlock: 8 at noon\nProgram length: 1\nFailed to process app - err: failed to disassemble: invalid\n" := by
  decide +kernel

/-- A text for which `Process` panics ends the scanner. -/
theorem C118_false : scan sampleEnv (fun _ => []) ⟨fun _ => .ok b!"pop 1\na:", fun _ => []⟩ [⟨7, [⟨b!"appl", some [1]⟩]⟩, ⟨8, []⟩] = none := by
  decide +kernel

theorem members_plain {function : Bytes → Option (Bytes × Nat × Nat × List Build.Code)} {ms : List Member} (h : ∀ m ∈ ms, ¬ Ported m) :
    translateMembers function ms = ((typeLines ms).flatten, some []) := by
  induction ms with
  | nil => rfl
  | cons m ms ih =>
    have ih := ih fun m hm => h m (by simp [hm])
    have hm := h m (by simp)
    cases m with
    | global n =>
      have : n = b!"init$guard" := Classical.byContradiction fun hn => hm ⟨(by
        rintro (e | e)
        · injection e with e; exact hn e
        · cases e), .inl ⟨n, rfl⟩⟩
      simp only [translateMembers, if_pos this]
      exact ih
    | function n =>
      have : n = b!"init" := Classical.byContradiction fun hn => hm ⟨(by
        rintro (e | e)
        · cases e
        · injection e with e; exact hn e), .inr ⟨n, rfl⟩⟩
      simp only [translateMembers, if_pos this]
      exact ih
    | type n =>
      simp only [translateMembers, ih]
      rfl
    | constant n =>
      simp only [translateMembers]
      exact ih

theorem members_ported {function : Bytes → Option (Bytes × Nat × Nat × List Build.Code)} {ms : List Member} (h : ∃ m ∈ ms, Ported m) :
    (∃ k, (translateMembers function ms).1 = ((typeLines ms).take k).flatten) ∧
    ((translateMembers function ms).2 = none ∨ ∃ l a r b body, (translateMembers function ms).2 = some (.func l a r b :: body)) := by
  induction ms with
  | nil => obtain ⟨m, hm, _⟩ := h; cases hm
  | cons m ms ih =>
    have tail : ∀ {m : Member}, ¬ Ported m → (∃ x ∈ m :: ms, Ported x) → ∃ x ∈ ms, Ported x := by
      rintro m hn ⟨x, hx, hp⟩
      rcases List.mem_cons.1 hx with rfl | hx
      · exact absurd hp hn
      · exact ⟨x, hx, hp⟩
    have made : ∀ {m : Member}, Made m → ¬ Ported m := fun h hp => hp.1 h
    cases m with
    | global n =>
      simp only [translateMembers]
      split
      · rename_i e; exact ih (tail (made (.inl (by rw [e]))) h)
      · exact ⟨⟨0, rfl⟩, .inl rfl⟩
    | function n =>
      simp only [translateMembers]
      split
      · rename_i e; exact ih (tail (made (.inr (by rw [e]))) h)
      · split
        · exact ⟨⟨0, rfl⟩, .inl rfl⟩
        · rename_i l a r b e
          dsimp only
          by_cases hms : ∃ m ∈ ms, Ported m
          · obtain ⟨⟨k, h1⟩, h2⟩ := ih hms
            refine ⟨⟨k, h1⟩, ?_⟩
            rcases h2 with h2 | ⟨l', a', r', b', body, h2⟩
            · rw [h2]; exact .inl rfl
            · rw [h2]; exact .inr ⟨_, _, _, _, _, rfl⟩
          · have hms : ∀ m ∈ ms, ¬ Ported m := fun m hm hp => hms ⟨m, hm, hp⟩
            rw [members_plain hms]
            exact ⟨⟨(typeLines ms).length, by
              show _ = ((typeLines ms).take _).flatten
              rw [List.take_length]⟩, .inr ⟨_, _, _, _, _, rfl⟩⟩
    | type n =>
      have : ¬ Ported (.type n) := fun ⟨_, hp⟩ => by rcases hp with ⟨_, e⟩ | ⟨_, e⟩ <;> cases e
      obtain ⟨⟨k, h1⟩, h2⟩ := ih (tail this h)
      refine ⟨⟨k + 1, ?_⟩, h2⟩
      simp only [translateMembers, h1]
      rfl
    | constant n =>
      have : ¬ Ported (.constant n) := fun ⟨_, hp⟩ => by rcases hp with ⟨_, e⟩ | ⟨_, e⟩ <;> cases e
      exact ih (tail this h)

/-- C119: the translator exits with status 0 only if there is nothing to translate; then it names the types and prints the empty
program.  It is partial because it should print the functions. -/
theorem C119_partial (function : Bytes → Option (Bytes × Nat × Nat × List Build.Code)) (ms : List Member) (h : ∀ m ∈ ms, ¬ Ported m) :
    translate function (some ms) = (0, (typeLines ms).flatten ++ b!"\n") := by
  unfold translate
  dsimp only
  rw [members_plain h]
  dsimp only
  rw [show Build.programString [] = some [] from rfl]
  simp

/-- The translator never translates anything: if there is a function or a variable in the file, it panics and prints nothing but names
of types, whatever the function is translated to and in whatever order the members come. -/
theorem C119_false (function : Bytes → Option (Bytes × Nat × Nat × List Build.Code)) (ms : List Member) (h : ∃ m ∈ ms, Ported m) :
    ∃ k, translate function (some ms) = (2, ((typeLines ms).take k).flatten) := by
  obtain ⟨⟨k, h1⟩, h2⟩ := members_ported (function := function) h
  refine ⟨k, ?_⟩
  unfold translate
  dsimp only
  generalize translateMembers function ms = r at h1 h2
  obtain ⟨out, body⟩ := r
  dsimp only at h1 h2
  subst h1
  rcases h2 with rfl | ⟨l, a, r, b, body, rfl⟩
  · rfl
  · rfl

example : (∃ m ∈ [Member.type b!"t", .function b!"init", .function b!"main"], Ported m) ∧
    translate (fun n => some (b!"func_" ++ n, 0, 1, [.op (.int 1)])) (some [.type b!"t", .function b!"init", .function b!"main"]) = (2, b!"type t\n") :=
  ⟨⟨.function b!"main", by decide, (by rintro (h | h) <;> cases h), .inr ⟨_, rfl⟩⟩, by decide +kernel⟩

end Teal.Props
