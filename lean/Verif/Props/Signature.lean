import Verif.Lemmas.Signature
import Verif.Props.Hover
import Verif.Props.WireOut

/-!
# Properties: signatures and snippets
-/

namespace Teal.Props

open Teal Teal.Spec Teal.WireSpec Teal.JsonSpec Teal.Wire

/-- The operands of an opcode as they are shown. -/
theorem shown_ops {w : Bytes} {e : OpEntry} (he : opsGet w = some e) :
    (w ≠ b!"gitxna" → Describes w (e.docArgs.map DocArg.operand)) := by
  intro hw
  refine ⟨fun ok ver ws o h => instr_described he hw h, fun ok ver ws h hi => ?_⟩
  exact described_instr he hw (by simpa using hi) h

theorem shows_signature {w : Bytes} {e : OpEntry} (he : opsGet w = some e) (t : Texts)
    (hx : w ∉ [b!"replace", b!"extract", b!"txn", b!"gtxns", b!"gtxn"]) (active : Int) :
    ShowsSignature w (e.docArgs.map DocArg.operand) (signatureOut t w active) := by
  obtain ⟨hm, hn⟩ := opsGet_mem he
  have hl : opText w OpEntry.fullSig = w ++ b!" " ++ bracketed Operand.long (e.docArgs.map DocArg.operand) := by
    rw [opText, he]
    show e.fullSig = _
    rw [fullSig_bracketed e hm (hn.symm ▸ hx), hn]
  have ha : opArgNames w = e.docArgs.map (·.name) := by rw [opArgNames, he]
  refine ⟨_, rfl, has_find (by decide) rfl (.cons ⟨_, rfl, ?_⟩ .nil)⟩
  rw [← hl, ha]
  by_cases hd : e.docArgs = []
  · rw [hd]
    split <;> exact ⟨has_find (by decide) rfl rfl, lacks_of (by decide) rfl⟩
  · rw [if_neg (show ¬ e.docArgs.map (·.name) = [] by simpa using hd)]
    dsimp only
    rw [if_neg (show ¬ e.docArgs.map DocArg.operand = [] by simpa using hd)]
    have harr : IsArr ((e.docArgs.map DocArg.operand).map fun o => IsObj fun ps => Has ps b!"label" (IsStr o.name))
        (.arr ((e.docArgs.map (·.name)).map fun a => .obj [(b!"label", .str a)])) := by
      rw [List.map_map, List.map_map]
      exact isArr_map _ fun a _ => ⟨_, rfl, has_find (by decide) rfl rfl⟩
    split <;> exact ⟨has_find (by decide) rfl rfl, has_find (by decide) rfl harr⟩

/-- The signatures shown describe what the reference allows. -/
theorem C113_signatures_partial (t : Texts) (w : Bytes) (hw : ∃ d ∈ docOps, d.name = w) :
    ∃ os : List Operand, (w ≠ b!"gitxna" → Describes w os) ∧
      (w ∉ [b!"replace", b!"extract", b!"txn", b!"gtxns", b!"gtxn"] → ∀ active, ShowsSignature w os (signatureOut t w active)) ∧
      ∀ d ∈ docOps, d.name = w → w ≠ b!"args" → ∀ v, d.app = some v →
        ∃ s, DecimalOf v s ∧ Details (b!" " ++ bracketed Operand.short os) (b!"v" ++ s) (completionOut t (.op w)) := by
  obtain ⟨e, he⟩ := Option.isSome_iff_exists.1 ((known_op w).2 hw)
  obtain ⟨hm, hn⟩ := opsGet_mem he
  refine ⟨e.docArgs.map DocArg.operand, shown_ops he, shows_signature he t, ?_⟩
  intro d hd hdn ha v hv
  have h1 : opText w OpEntry.argsSig = bracketed Operand.short (e.docArgs.map DocArg.operand) := by
    rw [opText, he]
    exact argsSig_bracketed e hm
  have h2 : (opText w fun e => formatUint (e.minVersion .app)) = formatUint v := by
    rw [opText, he]
    have := (docOps_table d hd (hdn.symm ▸ ha)).1
    rw [hdn, he, hv] at this
    simp only [Option.map_some, Option.getD_some, Option.some.injEq, Prod.mk.injEq] at this
    show formatUint _ = _
    rw [this.1]
  refine ⟨formatUint v, formatUint_decimal v, ?_⟩
  refine ⟨_, rfl, ?_⟩
  unfold nonempty
  rw [h1, h2]
  split <;>
  exact has_find (by decide) rfl ⟨_, rfl, has_find (by decide) rfl rfl, has_find (by decide) rfl rfl⟩

/-- Operands that can be left out are in brackets, and the last one is closed. -/
theorem bracketed_last (f : Operand → Bytes) {os : List Operand} (h : ∃ o ∈ os, o.optional = true) :
    ∃ s, bracketed f os = s ++ [93] := by
  have hne : os.dropWhile (fun o => !o.optional) ≠ [] := by
    clear f
    induction os with
    | nil => obtain ⟨o, ho, _⟩ := h; cases ho
    | cons x xs ih =>
      rw [List.dropWhile_cons]
      split
      · rename_i hx
        obtain ⟨o, ho, h⟩ := h
        rcases List.mem_cons.1 ho with rfl | ho
        · rw [h] at hx; cases hx
        · exact ih ⟨o, ho, h⟩
      · simp
  simp only [bracketed, if_neg hne]
  cases (required os).map f with
  | nil => exact ⟨_, by simp only [List.nil_append, spaced, List.flatMap_nil, List.append_nil]; rfl⟩
  | cons x xs =>
    refine ⟨x ++ xs.flatMap (fun t => 32 :: t) ++ 32 :: (b!"[" ++ spaced ((os.dropWhile fun o => !o.optional).map f)), ?_⟩
    simp [spaced, List.flatMap_append, List.append_assoc]

/-- The full claim is false.  The bracket in front of an operand that can be left out is never closed, and
`gitxna` is shown with a 64-bit group index where the reference has one of 8 bits. -/
theorem C113_false (t : Texts) (active : Int) :
    (∀ os, (∃ o ∈ os, o.optional = true) → ¬ ShowsSignature b!"txn" os (signatureOut t b!"txn" active)) ∧
    ∃ os, ShowsSignature b!"gitxna" os (signatureOut t b!"gitxna" active) ∧
      Described (fun _ => false) 8 b!"gitxna" os [b!"256", b!"Accounts", b!"0"] ∧
      ¬ ∃ o, Instr (fun _ => false) 8 b!"gitxna" [b!"256", b!"Accounts", b!"0"] o := by
  constructor
  · rintro os ho ⟨ms, hms, h⟩
    obtain ⟨s, hs⟩ := bracketed_last Operand.long ho
    obtain ⟨v, hv, -, hP⟩ := has_pick h (by decide) rfl
    cases hms
    cases hv
    cases hP with
    | cons hl _ =>
      obtain ⟨ss, hss, hl, -⟩ := hl
      cases hss
      obtain ⟨v, hv, -, hP⟩ := has_pick hl (f := b!"label") (by decide) rfl
      cases hv
      have e : opText b!"txn" OpEntry.fullSig = b!"txn" ++ b!" " ++ bracketed Operand.long os := Json.str.inj hP
      rw [hs] at e
      have l1 : (opText b!"txn" OpEntry.fullSig).getLast? = some 125 := by decide +kernel
      rw [e, ← List.append_assoc, List.getLast?_concat] at l1
      exact absurd l1 (by decide)
  · have hf : (opsGet b!"gitxna").map OpEntry.form = some [rq b!"uint64", rq taf, rq b!"uint8"] := by decide +kernel
    obtain ⟨e, he, hf⟩ := Option.map_eq_some_iff.1 hf
    refine ⟨e.docArgs.map DocArg.operand, shows_signature he t (by decide) active, ?_, ?_⟩
    · rw [described_iff, hf]
      refine .inl (.one _ _ [_] _ rfl (.uint _ 256 ⟨?_, by decide⟩) (.one _ _ [_] _ rfl (.array _ 28 (.inl ⟨_, rfl, by decide, by decide, by decide⟩))
        (.one _ _ [_] [] rfl (.byte _ 0 ⟨by decide, [0], ?_, by decide, by decide⟩) .none)))
      · exact .decimal 50 [53, 54] [2, 5, 6] (by decide)
          (.digit _ _ _ _ _ rfl (by decide) (.digit _ _ _ _ _ rfl (by decide) (.digit _ _ _ _ _ rfl (by decide) (.nil _))))
      · exact ⟨rfl, by decide⟩
    · rintro ⟨o, h⟩
      generalize e1 : b!"gitxna" = w at h
      generalize e2 : [b!"256", b!"Accounts", b!"0"] = ws at h
      cases h with
      | groupArrayAt _ x y z k t f i h hx hy hz =>
        cases e2
        obtain ⟨-, ds, ⟨h1, -⟩, h2, h3⟩ := hx
        have h4 : ds.map some = [2, 5, 6].map some := h1.symm
        rw [(List.map_inj_right fun a b h => Option.some.inj h).1 h4] at h2
        rw [h2] at h3
        exact absurd h3 (by decide)
      | _ => first
        | exact absurd e1 (by decide)
        | exact absurd e2 (by simp)

/-- Accepting the completion of an opcode inserts its name and, after a space each, one stop for each
operand the signature has. -/
theorem C114_inserted (t : Texts) (w : Bytes) (hw : ∃ d ∈ docOps, d.name = w) :
    ∃ os : List Operand, (w ≠ b!"gitxna" → Describes w os) ∧
      Inserts (fun fill => w ++ (List.range os.length).flatMap fun i => 32 :: fill (i + 1)) (completionOut t (.op w)) := by
  obtain ⟨e, he⟩ := Option.isSome_iff_exists.1 ((known_op w).2 hw)
  obtain ⟨hm, hn⟩ := opsGet_mem he
  refine ⟨e.docArgs.map DocArg.operand, shown_ops he, _, rfl, ?_⟩
  rw [List.length_map]
  have hi : opText w OpEntry.insert = e.insert := by rw [opText, he]
  unfold nonempty
  rw [hi]
  by_cases hd : e.docArgs = []
  · have h0 : e.insert = [] := by simp [OpEntry.insert, hd]
    rw [if_pos h0, if_pos h0, hd]
    exact ⟨lacks_of (by decide) rfl, .inl ⟨lacks_of (by decide) rfl, w, has_find (by decide) rfl rfl, fun fill => by simp⟩⟩
  · have h0 : e.insert ≠ [] := by simp [OpEntry.insert, hd]
    rw [if_neg h0, if_neg h0]
    exact ⟨lacks_of (by decide) rfl, .inr (.inl ⟨e.insert, has_find (by decide) rfl rfl, has_find (by decide) rfl (num_integer 2),
      fun fill => hn ▸ expands_insert hm hd⟩)⟩

theorem has_both {ms : List (Bytes × Json)} {k : Bytes} {P Q : Json → Prop} (hk : Ascii k) (h : Has ms k P) (h' : Has ms k Q) :
    ∃ v, P v ∧ Q v := by
  obtain ⟨v, h1, -, h2⟩ := has_pick h hk rfl
  obtain ⟨v', h1', -, h2'⟩ := has_pick h' hk rfl
  rw [h1] at h1'
  cases h1'
  exact ⟨v, h2, h2'⟩

theorem has_not_lacks {ms : List (Bytes × Json)} {k : Bytes} {P : Json → Prop} (h : Has ms k P) (h' : Lacks ms k) : False := by
  obtain ⟨pre, v, post, rfl, -⟩ := h
  exact h' (k, v) (by simp) (alike_refl k)

theorem integer_ne {i j : Int} {v : Json} (h : Integer i v) (h' : Integer j v) : i = j := by
  obtain ⟨s, rfl, h⟩ := h
  obtain ⟨s', e, h'⟩ := h'
  cases e
  have minus : ∀ {n : Nat} {t : Bytes}, ¬ DecimalOf n (b!"-" ++ t) := fun h =>
    absurd ((decimal_digits h).2 45 (by simp)) (by decide)
  rcases h with ⟨n, rfl, h⟩ | ⟨n, t, rfl, h, rfl⟩ <;> rcases h' with ⟨m, rfl, h'⟩ | ⟨m, t', rfl, h', e⟩
  · rw [decimal_eq h h']
  · rw [e] at h
    exact (minus h).elim
  · exact (minus h').elim
  · rw [List.append_cancel_left e] at h
    rw [decimal_eq h h']

/-- An item inserts one thing only. -/
theorem C114_unique {out out' : (Nat → Bytes) → Bytes} {j : Json} (h : Inserts out j) (h' : Inserts out' j) : out = out' := by
  obtain ⟨ms, rfl, -, h⟩ := h
  obtain ⟨ms', e, -, h'⟩ := h'
  cases e
  funext fill
  have format : Has ms b!"insertTextFormat" (Integer 2) → Opt ms b!"insertTextFormat" (Integer 1) → False := by
    rintro a (b | b)
    · exact has_not_lacks a b
    · obtain ⟨v, h1, h2⟩ := has_both (by decide) a b
      exact absurd (integer_ne h1 h2) (by decide)
  rcases h with ⟨a, s, b, c⟩ | ⟨s, a, b, c⟩ | ⟨s, a, b, c⟩ <;> rcases h' with ⟨a', s', b', c'⟩ | ⟨s', a', b', c'⟩ | ⟨s', a', b', c'⟩
  · obtain ⟨v, h1, h2⟩ := has_both (by decide) b b'
    rw [c, c', Json.str.inj (h1.symm.trans h2)]
  · exact (has_not_lacks a' a).elim
  · exact (has_not_lacks a' a).elim
  · exact (has_not_lacks a a').elim
  · obtain ⟨v, h1, h2⟩ := has_both (by decide) a a'
    rw [Json.str.inj (h1.symm.trans h2)] at c
    exact expands_unique (c fill) _ (c' fill)
  · exact (format b b').elim
  · exact (has_not_lacks a a').elim
  · exact (format b' b).elim
  · obtain ⟨v, h1, h2⟩ := has_both (by decide) a a'
    rw [c, c', Json.str.inj (h1.symm.trans h2)]

/-- The case of `substring`: two operands, and `substring 1 2` is what accepting the completion and filling the stops gives. -/
example (t : Texts) : signatureOut t b!"substring" 0 = .obj [(b!"signatures", .arr [.obj ([(b!"label", .str b!"substring {uint8 : s} {uint8 : e}")] ++
    (if t.fullDoc b!"substring" = [] then [] else [(b!"documentation", markup b!"markdown" (t.fullDoc b!"substring"))]) ++
    [(b!"parameters", .arr [.obj [(b!"label", .str b!"s")], .obj [(b!"label", .str b!"e")]])] ++ [(b!"activeParameter", num 0)])])] := rfl

example : (∃ d ∈ docOps, d.name = b!"substring") ∧ b!"substring" ∉ [b!"replace", b!"extract", b!"txn", b!"gtxns", b!"gtxn"] ∧
    opText b!"substring" OpEntry.insert = b!"substring ${1:s} ${2:e}" ∧ opText b!"txn" OpEntry.argsSig = b!"f [i]" ∧
    opText b!"extract" OpEntry.argsSig = b!"[s l]" ∧ opText b!"intcblock" OpEntry.argsSig = b!"value, ..." := by
  refine ⟨?_, ?_, ?_, ?_, ?_, ?_⟩ <;> decide +kernel

example : bracketed Operand.short [⟨b!"f", b!"transaction field index", false, false⟩, ⟨b!"i", b!"uint8", false, true⟩] = b!"f [i]" ∧
    Expands (fun i => if i = 1 then b!"3" else b!"4") b!"substring ${1:s} ${2:e}" b!"substring 3 4" := by
  refine ⟨by decide, ?_⟩
  have e : b!"substring ${1:s} ${2:e}" = b!"substring " ++ (b!"${1:s}" ++ (b!" " ++ (b!"${2:e}" ++ []))) := rfl
  rw [e]
  exact expands_text (by decide) (.placeholder 1 [49] [115] _ _ ⟨[1], ⟨rfl, by decide⟩, rfl, by decide, by decide⟩ (by decide)
    (expands_text (s := b!" ") (by decide) (.placeholder 2 [50] [101] _ [] ⟨[2], ⟨rfl, by decide⟩, rfl, by decide, by decide⟩ (by decide) .nil)))

end Teal.Props
