import Verif.Spec.Taken
import Verif.Props.Instr

/-!
# Property C55: exactly the operands that are taken
-/

namespace Teal.Props
open Spec P

/-! ## Byte constants -/

theorem bytesAt_cut {p s z : Bytes} (hp : p ∈ parenHeads) (hs : 41 ∉ s) (ws : List Bytes) :
    bytesAt (p ++ s ++ 41 :: z) ws = bytesAt (p ++ s ++ [41]) ws := by
  have hbody : ∀ z, parenBody (p ++ s ++ 41 :: z) = some s := by
    intro z
    obtain ⟨q, hq, hq'⟩ := paren_prefix p hp
    have e : p ++ s ++ 41 :: z = q ++ 40 :: (s ++ 41 :: z) := by simp [hq]
    rw [e]
    exact (parenBody_iff q _ s hq').2 ⟨z, rfl, hs⟩
  have h64 : ∀ p', p = p' → p' ∈ [b!"base32(", b!"b32("] ∨ p' ∈ [b!"base64(", b!"b64("] := by
    rintro p' rfl
    simp only [parenHeads, List.mem_cons, List.not_mem_nil, or_false] at hp ⊢
    rcases hp with h | h | h | h <;> simp [h]
  rcases h64 p rfl with h | h
  · have h1 := bytesAt_b32 p (s ++ 41 :: z) h ws
    have h2 := bytesAt_b32 p (s ++ [41]) h ws
    rw [← List.append_assoc] at h1 h2
    rw [h1, h2, hbody z, hbody []]
  · have h1 := bytesAt_b64 p (s ++ 41 :: z) h ws
    have h2 := bytesAt_b64 p (s ++ [41]) h ws
    rw [← List.append_assoc] at h1 h2
    rw [h1, h2, hbody z, hbody []]

theorem bytesAt_taken {used : List Bytes} {v : Bytes} (h : TakenBytes used v) (rest : List Bytes) :
    ∃ w ws, used ++ rest = w :: ws ∧ bytesAt w ws = some (v, rest) := by
  cases h with
  | said _ _ h => exact bytesAt_of h rest
  | dropped p s z _ hp hs h =>
    obtain ⟨w, ws, h1, h2⟩ := bytesAt_of h rest
    injection h1 with h1 h3
    subst h1; subst h3
    exact ⟨_, _, rfl, by rw [bytesAt_cut hp hs]; exact h2⟩

theorem wordy_cut {p s z : Bytes} (hp : p ∈ parenHeads) (h : Wordy (p ++ s ++ 41 :: z)) : Wordy (p ++ s ++ [41]) := by
  rcases h with h | ⟨b, h⟩
  · refine .inl fun x hx => h x ?_
    simp only [List.mem_append, List.mem_cons, List.not_mem_nil, or_false] at hx ⊢
    rcases hx with hx | hx
    · exact .inl hx
    · exact .inr (.inl hx)
  · exfalso
    simp only [parenHeads, List.mem_cons, List.not_mem_nil, or_false] at hp
    rcases hp with rfl | rfl | rfl | rfl <;> (injection h with h _; exact absurd h (by decide))

theorem taken_of_bytesAt {w : Bytes} {ws rest : List Bytes} {v : Bytes} (hw : ∀ x ∈ w :: ws, Wordy x)
    (h : bytesAt w ws = some (v, rest)) : ∃ used, w :: ws = used ++ rest ∧ TakenBytes used v := by
  by_cases hc : ∃ p ∈ parenHeads, ∃ t, w = p ++ t ∧ 41 ∈ t
  · obtain ⟨p, hp, t, rfl, ht⟩ := hc
    obtain ⟨s, z, rfl, hs⟩ := split_first ht
    have hw' : ∀ x ∈ (p ++ s ++ [41]) :: ws, Wordy x := by
      intro x hx
      rcases List.mem_cons.1 hx with rfl | hx
      · exact wordy_cut (z := z) hp (by rw [List.append_assoc]; exact hw _ List.mem_cons_self)
      · exact hw x (List.mem_cons_of_mem _ hx)
    have hcl : Closed (p ++ s ++ [41]) := by
      intro p' hp' y z' he
      obtain ⟨q, hq, hqn⟩ := paren_prefix p hp
      obtain ⟨q', hq', hqn'⟩ := paren_prefix p' hp'
      -- the first closing parenthesis is the last byte
      have h1 : (41 : UInt8) ∉ p ++ s := by
        intro hm
        rcases List.mem_append.1 hm with hm | hm
        · rw [hq] at hm
          rcases List.mem_append.1 hm with hm | hm
          · exact (hqn _ hm).2 rfl
          · simp at hm
        · exact hs hm
      rcases List.eq_nil_or_concat z' with rfl | ⟨z'', c, rfl⟩
      · rfl
      · exfalso
        rw [List.concat_eq_append, ← List.cons_append, ← List.append_assoc] at he
        have := (List.append_inj' he rfl).1
        rw [this] at h1
        exact h1 (by simp)
    rw [← List.append_assoc] at h ⊢
    rw [bytesAt_cut hp hs] at h
    obtain ⟨used, h1, h2⟩ := of_bytesAt hw' hcl h
    -- the constant is in the first word
    have hb : ∀ v' rest', bytesAt (p ++ s ++ [41]) ws = some (v', rest') → rest' = ws := by
      intro v' rest' h'
      have h64 : p ∈ [b!"base32(", b!"b32("] ∨ p ∈ [b!"base64(", b!"b64("] := by
        simp only [parenHeads, List.mem_cons, List.not_mem_nil, or_false] at hp ⊢
        rcases hp with h | h | h | h <;> simp [h]
      rw [List.append_assoc] at h'
      rcases h64 with h | h
      · rw [bytesAt_b32 _ _ h] at h'
        obtain ⟨a, -, h''⟩ := Option.map_eq_some_iff.1 h'
        injection h'' with _ h''; exact h''.symm
      · rw [bytesAt_b64 _ _ h] at h'
        obtain ⟨a, -, h''⟩ := Option.map_eq_some_iff.1 h'
        injection h'' with _ h''; exact h''.symm
    have h3 := hb _ _ h
    subst h3
    have h4 : used = [p ++ s ++ [41]] := by
      have : [p ++ s ++ [41]] ++ rest = used ++ rest := h1
      exact (List.append_cancel_right this).symm
    rw [h4] at h2
    exact ⟨[_], rfl, .dropped p s z v hp hs h2⟩
  · have hcl : Closed w := by
      intro p hp y z he
      exact absurd ⟨p, hp, y ++ 41 :: z, by rw [he, List.append_assoc], by simp⟩ hc
    obtain ⟨used, h1, h2⟩ := of_bytesAt hw hcl h
    exact ⟨used, h1, .said _ _ h2⟩

theorem bytes_taken {ws : List Bytes} (hw : ∀ x ∈ ws, Wordy x) (ver : Nat) (v : Bytes) :
    Reader.bytes ver ws = some (v, []) ↔ TakenBytes ws v := by
  constructor
  · intro h
    cases ws with
    | nil => cases h
    | cons w ws =>
      obtain ⟨used, h1, h2⟩ := taken_of_bytesAt hw h
      rw [List.append_nil] at h1
      rw [h1]; exact h2
  · intro h
    obtain ⟨w, ws', h1, h2⟩ := bytesAt_taken h []
    rw [List.append_nil] at h1
    rw [h1]; exact h2

theorem bytesAll_taken {ws : List Bytes} (hw : ∀ x ∈ ws, Wordy x) (ver : Nat) (vs : List Bytes) :
    Reader.all bytesAt ver ws = some (vs, []) ↔ Several TakenBytes ws vs :=
  all_iff (good := Wordy) (fun _ _ _ _ hg h => taken_of_bytesAt hg h)
    (fun _ _ h rest => bytesAt_taken h rest) bytesAt_shrinks vs ver ws hw

/-! ## Array fields -/

theorem txna_any (v v' : Nat) (s : Bytes) : readFieldWith (.txn .txna) v s = readFieldWith (.txn .txna) v' s := by
  show readTxnField .txna v s = readTxnField .txna v' s
  by_cases hd : ∃ d ∈ txnFields, d.name = s
  · obtain ⟨d, hd, rfl⟩ := hd
    obtain ⟨j, hj⟩ := List.mem_iff_getElem?.1 hd
    rw [C15_txna_partial v j d hj, C15_txna_partial v' j d hj]
  · have hno : ∀ d ∈ txnFields, d.name ≠ s := fun d h1 h2 => hd ⟨d, h1, h2⟩
    have hno' : ∀ d ∈ documented .txn, d.name ≠ s := by
      intro d hd
      obtain ⟨x, hx, rfl⟩ := List.mem_map.1 hd
      exact hno x hx
    rw [C16_txn_by_number .txna v s hno, C16_txn_by_number .txna v' s hno]
    apply Option.ext
    intro r
    rw [C16_by_number .txn v s hno' r, C16_by_number .txn v' s hno' r]

/-- Shapes with an array field. -/
def arrayShape : Shape → Bool
  | .field (.txn .txna) _ | .fieldIdx _ | .groupField .txna _ | .gtxna | .gitxna => true
  | _ => false

theorem arrayOps_shape : ∀ x ∈ arrayOps, ((opsGet x).map fun e => arrayShape e.shape) = some true := by decide +kernel

theorem eval_array {w : Bytes} {e : OpEntry} (he : opsGet w = some e) (hw : w ∈ arrayOps) (addrOk : Bytes → Bool) (v v' : Nat)
    (ws : List Bytes) : evalShape addrOk e.shape v ws = evalShape addrOk e.shape v' ws := by
  have h := arrayOps_shape w hw
  rw [he] at h
  have h1 : arrayShape e.shape = true := by simpa using h
  unfold arrayShape at h1
  split at h1
  all_goals first
    | exact absurd h1 (by decide)
    | (rename_i hs
       rw [hs]
       simp only [evalShape, Reader.bind, Reader.word, Reader.ret, txna_any v v'])

theorem txn_since : ∀ d ∈ txnFields, d.since ≤ 100 := by decide +kernel


theorem arrayField_any {ver v : Nat} {s : Bytes} {i : Nat} (h : IsArrayField v s i) :
    (readFieldWith (.txn .txna) ver s).map (·.field) = some i := by
  rw [txna_any ver v]
  exact arrayField_of h

theorem any_arrayField {ver : Nat} {s : Bytes} {i : Nat} (h : (readFieldWith (.txn .txna) ver s).map (·.field) = some i) :
    IsArrayField 100 s i := by
  rw [txna_any ver 100] at h
  exact (arrayField_iff 100 s i fun d hd _ _ => txn_since d hd).1 h

/-! ## Instructions -/

theorem shape_is {w : Bytes} {e : OpEntry} {sh : Shape} (he : opsGet w = some e) (h : (opsGet w).map (·.shape) = some sh) : e.shape = sh := by
  rw [he] at h; simpa using h

theorem taken_of_eval {addrOk : Bytes → Bool} {ver : Nat} {w : Bytes} {e : OpEntry} {ws : List Bytes} {o : Op}
    (he : opsGet w = some e) (hw : ∀ x ∈ ws, Wordy x ∧ x ≠ [34])
    (h : evalShape addrOk e.shape ver ws = some (o, [])) : Taken addrOk ver w ws o := by
  have hu : ∀ {x n}, readUint8 x = some n → IsByte x n := fun h => (C11_uint8 _ _).1 h
  have hw1 : ∀ x ∈ ws, Wordy x := fun x hx => (hw x hx).1
  by_cases hg : w = b!"gitxna"
  · subst hg
    rw [shape_is he (by decide +kernel : _ = some Shape.gitxna)] at h
    simp only [evalShape, word_bind, ret_iff] at h
    obtain ⟨x, xs, n, rfl, h2, y, ys, m, rfl, h3, z, zs, i, rfl, h4, rfl, rfl⟩ := h
    exact .lowByte 100 _ _ _ _ _ _ ((C11_int_literal _ _).1 h2) (any_arrayField h3) (hu h4)
  by_cases hb : w ∈ byteConstOps
  · simp only [byteConstOps, List.mem_cons, List.not_mem_nil, or_false] at hb
    rcases hb with rfl | rfl | rfl | rfl
    · rw [shape_is he (by decide +kernel : _ = some Shape.byte)] at h
      obtain ⟨v, h2, rfl⟩ := any_bind.1 h
      exact .byte _ _ ((bytes_taken hw1 ver v).1 h2)
    · rw [shape_is he (by decide +kernel : _ = some Shape.pushbytes)] at h
      obtain ⟨v, h2, rfl⟩ := any_bind.1 h
      exact .pushbytes _ _ ((bytes_taken hw1 ver v).1 h2)
    · rw [shape_is he (by decide +kernel : _ = some Shape.bytecblock)] at h
      obtain ⟨v, h2, rfl⟩ := any_bind.1 h
      exact .bytecblock _ _ ((bytesAll_taken hw1 ver v).1 h2)
    · rw [shape_is he (by decide +kernel : _ = some Shape.pushbytess)] at h
      obtain ⟨v, h2, rfl⟩ := any_bind.1 h
      exact .pushbytess _ _ ((bytesAll_taken hw1 ver v).1 h2)
  by_cases ha : w ∈ arrayOps
  · have hn : ∀ x ∈ arrayOps, x ∉ [b!"txn", b!"gtxns"] ∧ x ≠ b!"gtxn" := by decide
    rw [eval_array he ha addrOk ver 100] at h
    refine .early 100 _ _ _ ha hg (instr_of_eval he hw ⟨hg, fun _ x _ d hd _ _ => txn_since d hd, ?_, fun h => absurd h hb⟩ h)
    rintro (⟨h1, -⟩ | ⟨h1, -⟩)
    · exact absurd h1 (hn w ha).1
    · exact absurd h1 (hn w ha).2
  by_cases ht : w = b!"txn"
  · subst ht
    rw [shape_is he (by decide +kernel : _ = some (Shape.fieldOptIdx .txn .txna))] at h
    simp only [evalShape, word_bind, opt_bind, ret_iff] at h
    obtain ⟨x, xs, n, rfl, h2, h⟩ := h
    rcases h with ⟨rfl, rfl, -⟩ | ⟨y, ys, m, rfl, h3, rfl, rfl⟩
    · exact .said _ _ _ hg (.txn _ _ _ _ (by simp) ((txnField_iff ver x n).1 h2))
    · exact .indexed _ _ _ _ _ _ (by simp) ((txnField_iff ver x n).1 h2) (hu h3)
  by_cases ht' : w = b!"gtxns"
  · subst ht'
    rw [shape_is he (by decide +kernel : _ = some (Shape.fieldOptIdx .gtxns .gtxnsa))] at h
    simp only [evalShape, word_bind, opt_bind, ret_iff] at h
    obtain ⟨x, xs, n, rfl, h2, h⟩ := h
    rcases h with ⟨rfl, rfl, -⟩ | ⟨y, ys, m, rfl, h3, rfl, rfl⟩
    · exact .said _ _ _ hg (.txn _ _ _ _ (by simp) ((txnField_iff ver x n).1 h2))
    · exact .indexed _ _ _ _ _ _ (by simp) ((txnField_iff ver x n).1 h2) (hu h3)
  by_cases hx : w = b!"gtxn"
  · subst hx
    rw [shape_is he (by decide +kernel : _ = some Shape.gtxn)] at h
    simp only [evalShape, word_bind, opt_bind, ret_iff] at h
    obtain ⟨x, xs, n, rfl, h2, y, ys, m, rfl, h3, h⟩ := h
    rcases h with ⟨rfl, rfl, -⟩ | ⟨z, zs, i, rfl, h4, rfl, rfl⟩
    · exact .said _ _ _ hg (.group _ _ _ _ _ _ (by simp) (hu h2) ((txnField_iff ver y m).1 h3))
    · exact .groupIndexed _ _ _ _ _ _ (hu h2) ((txnField_iff ver y m).1 h3) (hu h4)
  refine .said _ _ _ hg (instr_of_eval he hw ⟨hg, fun h => absurd h ha, ?_, fun h => absurd h hb⟩ h)
  rintro (⟨h1, -⟩ | ⟨h1, -⟩)
  · simp [ht, ht'] at h1
  · exact absurd h1 hx

theorem eval_of_taken {addrOk : Bytes → Bool} {ver : Nat} {w : Bytes} {e : OpEntry} {ws : List Bytes} {o : Op}
    (he : opsGet w = some e) (hw : ∀ x ∈ ws, Wordy x) (h : Taken addrOk ver w ws o) : evalShape addrOk e.shape ver ws = some (o, []) := by
  have hu : ∀ {x n}, IsByte x n → readUint8 x = some n := fun h => (C11_uint8 _ _).2 h
  cases h with
  | said _ _ _ hg h => exact eval_of_instr he hg h
  | early v _ _ _ ha hg h =>
    rw [eval_array he ha addrOk ver v]
    exact eval_of_instr he hg h
  | indexed _ x y k f i h hx hy =>
    simp only [List.mem_cons, List.not_mem_nil, or_false, Prod.mk.injEq] at h
    rcases h with ⟨rfl, rfl⟩ | ⟨rfl, rfl⟩
    · rw [shape_is he (by decide +kernel : _ = some (Shape.fieldOptIdx .txn .txna))]
      simp only [evalShape, word_bind, opt_bind, ret_iff]
      exact ⟨x, [y], f, rfl, (txnField_iff ver x f).2 hx, .inr ⟨y, [], i, rfl, hu hy, rfl, rfl⟩⟩
    · rw [shape_is he (by decide +kernel : _ = some (Shape.fieldOptIdx .gtxns .gtxnsa))]
      simp only [evalShape, word_bind, opt_bind, ret_iff]
      exact ⟨x, [y], f, rfl, (txnField_iff ver x f).2 hx, .inr ⟨y, [], i, rfl, hu hy, rfl, rfl⟩⟩
  | groupIndexed x y z t f i hx hy hz =>
    rw [shape_is he (by decide +kernel : _ = some Shape.gtxn)]
    simp only [evalShape, word_bind, opt_bind, ret_iff]
    exact ⟨x, [y, z], t, rfl, hu hx, y, [z], f, rfl, (txnField_iff ver y f).2 hy, .inr ⟨z, [], i, rfl, hu hz, rfl, rfl⟩⟩
  | lowByte v x y z t f i hx hy hz =>
    rw [shape_is he (by decide +kernel : _ = some Shape.gitxna)]
    simp only [evalShape, word_bind, ret_iff]
    exact ⟨x, [y, z], t, rfl, (C11_int_literal _ _).2 hx, y, [z], f, rfl, arrayField_any hy, z, [], i, rfl, hu hz, rfl, rfl⟩
  | byte _ v h =>
    rw [shape_is he (by decide +kernel : _ = some Shape.byte)]
    exact any_bind.2 ⟨v, (bytes_taken hw ver v).2 h, rfl⟩
  | pushbytes _ v h =>
    rw [shape_is he (by decide +kernel : _ = some Shape.pushbytes)]
    exact any_bind.2 ⟨v, (bytes_taken hw ver v).2 h, rfl⟩
  | bytecblock _ v h =>
    rw [shape_is he (by decide +kernel : _ = some Shape.bytecblock)]
    exact any_bind.2 ⟨v, (bytesAll_taken hw ver v).2 h, rfl⟩
  | pushbytess _ v h =>
    rw [shape_is he (by decide +kernel : _ = some Shape.pushbytess)]
    exact any_bind.2 ⟨v, (bytesAll_taken hw ver v).2 h, rfl⟩

theorem taken_known {addrOk : Bytes → Bool} {ver : Nat} {w : Bytes} {ws : List Bytes} {o : Op} (h : Taken addrOk ver w ws o) :
    opsGet w ≠ none := by
  intro hn
  cases h with
  | said _ _ _ _ h => obtain ⟨e, h1⟩ := instr_known h; rw [hn] at h1; cases h1
  | early v _ _ _ _ _ h => obtain ⟨e, h1⟩ := instr_known h; rw [hn] at h1; cases h1
  | indexed _ x y k f i h =>
    simp only [List.mem_cons, List.not_mem_nil, or_false, Prod.mk.injEq] at h
    rcases h with ⟨rfl, rfl⟩ | ⟨rfl, rfl⟩ <;> revert hn <;> decide +kernel
  | _ => revert hn; decide +kernel

/-- **C55** (exactly) A line whose first word is not a label or a pragma is read without complaint exactly if the
code takes its words for an instruction, and then, if no line has surplus words, that instruction is what the
listing has for the line.  This is the language of the reference (`Instr`) and the four ways the code goes beyond it. -/
theorem C55_exact (env : Env) (src : Bytes) (r : ProcessResult) (h : process env src = some r)
    (k : Nat) (t : Token) (rest : List Token) (ver : Nat) (hw : words (tokens src) k = t :: rest)
    (hv : VersionAt (tokens src) k ver) (hl : t.v.getLast? ≠ some chColon) (hp : t.v ≠ b!"#pragma") :
    ((∀ d ∈ r.diagnostics, d.l = k → ∀ why, d.kind ≠ .parse why) ↔ ∃ o, Taken env.addrOk ver t.v (rest.map Token.v) o) ∧
    (NoSurplus r → ∀ o, o ≠ .empty → (r.listing[k]? = some o ↔ Taken env.addrOk ver t.v (rest.map Token.v) o)) :=
  operands_of_reading env src r h k t rest ver hw hv hl hp _ (fun he _ hi => taken_known hi he)
    (fun _ he hwordy _ => ⟨taken_of_eval he hwordy, eval_of_taken he fun x hx => (hwordy x hx).1⟩)

/-- Words that the reference does not allow are taken: an index into a field that is no array, and text behind a parenthesis. -/
example : Taken (fun _ => true) 1 b!"txn" [b!"Fee", b!"7"] (.fieldIdx .txna 1 7) ∧
    Taken (fun _ => true) 1 b!"byte" [b!"b64(AA==)zz"] (.byte [0]) ∧
    (process sampleEnv b!"txn Fee 7\nbyte b64(AA==)zz").map (·.listing) = some [.fieldIdx .txna 1 7, .byte [0]] :=
  ⟨.indexed _ _ _ _ _ _ (by decide) ((txnField_iff 1 _ _).1 (by decide +kernel)) ((C11_uint8 _ _).1 (by decide)),
   .byte _ _ ((bytes_taken (by intro x hx; simp at hx; subst hx; exact .inl (by decide)) 1 [0]).1 (by decide +kernel)),
   by decide +kernel⟩

end Teal.Props
