import Verif.Lemmas.Frame
import Verif.Props.Lsp

/-!
# Property C49: frames
-/

namespace Teal.Props

open Teal Teal.Spec Teal.Frame Teal.Frame.Spec

/-- C49: from a stream of frames, with any fields in any order, the bodies are read, each whole and
in order, whatever bytes they contain.  If the stream ends inside a frame, that frame is dropped
and nothing else. -/
theorem C49_read (frames : List (List (Bytes × Bytes) × Bytes)) (cut : Bytes)
    (hv : ∀ f ∈ frames, Valid f.1 f.2 ∧ f.2.length < 2 ^ 63)
    (hcut : cut = [] ∨ ∃ fields body rest, Valid fields body ∧ body.length < 2 ^ 63 ∧ rest ≠ [] ∧
      cut ++ rest = frameBytes fields body) :
    bodies (frames.flatMap (fun f => frameBytes f.1 f.2) ++ cut) = (frames.map (·.2), false) := by
  have hlen : ∀ fs : List (List (Bytes × Bytes) × Bytes), fs.length ≤ (fs.flatMap fun f => frameBytes f.1 f.2).length := by
    intro fs
    induction fs with
    | nil => simp
    | cons f fs ih =>
      have := frameBytes_length (fields := f.1) (body := f.2)
      rw [List.flatMap_cons, List.length_append, List.length_cons]
      omega
  unfold bodies
  have h1 := hlen frames
  rw [bodiesLoop_frames hv _ _ (by rw [List.length_append]; omega)]
  have hn : ∀ n, bodiesLoop n [] = ([], false) := by intro n; cases n <;> rfl
  have h0 : ∀ n, bodiesLoop n cut = ([], false) := by
    intro n
    rcases hcut with rfl | ⟨fields, body, rest, h1, h2, h3, h4⟩
    · exact hn n
    · cases n with
      | zero => rfl
      | succ n =>
        rw [bodiesLoop]
        rcases readFrame_cut h1 h2 h3 h4 with h | h <;> rw [h]
        exact hn n
  rw [h0]
  simp

instance (k : Bytes) : Decidable (IsLength k) := by unfold IsLength; infer_instance

/-- What is written is a frame of the protocol. -/
theorem writeFrame_valid (body : Bytes) : Valid [(b!"Content-Length", formatUint body.length)] body ∧
    writeFrame body = frameBytes [(b!"Content-Length", formatUint body.length)] body := by
  have hd := formatUint_decimal body.length
  refine ⟨⟨?_, ?_, ?_, ?_⟩, ?_⟩
  · intro f hf
    rw [List.mem_singleton] at hf
    subst hf
    exact ⟨by simp, by dsimp only; decide⟩
  · intro f hf
    rw [List.mem_singleton] at hf
    subst hf
    obtain ⟨ds, ⟨h1, h2⟩, _⟩ := hd
    intro c hc
    have hb : ∀ c : UInt8, (digitValue c).isSome = true → 32 ≤ c ∧ c ≠ 127 := by
      intro c; revert c; apply forall_byte; decide +kernel
    apply hb
    have : digitValue c ∈ (formatUint body.length).map digitValue := List.mem_map_of_mem hc
    rw [h1] at this
    obtain ⟨d, _, hd⟩ := List.mem_map.1 this
    rw [← hd]; rfl
  · exact ⟨_, _, List.mem_singleton.2 rfl, by decide⟩
  · intro f hf _
    rw [List.mem_singleton] at hf
    subst hf
    exact hd
  · simp [writeFrame, frameBytes, fieldBytes]

/-- C49: writing bodies and reading the stream back gives the same bodies. -/
theorem C49 (bs : List Bytes) (hl : ∀ b ∈ bs, b.length < 2 ^ 63) : bodies (bs.flatMap writeFrame) = (bs, false) := by
  have h := C49_read (bs.map fun b => ([(b!"Content-Length", formatUint b.length)], b)) []
    (by
      intro f hf
      obtain ⟨b, hb, rfl⟩ := List.mem_map.1 hf
      exact ⟨(writeFrame_valid b).1, hl b hb⟩) (.inl rfl)
  rw [List.flatMap_map, List.append_nil, List.map_map] at h
  have e : (bs.flatMap fun b => frameBytes [(b!"Content-Length", formatUint b.length)] b) = bs.flatMap writeFrame := by
    congr 1; funext b; exact (writeFrame_valid b).2.symm
  rw [e] at h
  rw [h]
  congr 1
  exact List.map_id' bs

/-- C49: the language server acts on the messages in the frames of its input, in order, and what it
writes can be read back as the messages it sent. -/
theorem C49_server (h : Lsp.Host) (decode : Bytes → Option Lsp.Msg) (encode : Lsp.Sent → Bytes)
    (choices : Nat → Lsp.Choice) (frames : List (List (Bytes × Bytes) × Bytes))
    (hv : ∀ f ∈ frames, Valid f.1 f.2 ∧ f.2.length < 2 ^ 63) (he : ∀ s, (encode s).length < 2 ^ 63) :
    let s := serve h decode choices (frames.flatMap fun f => frameBytes f.1 f.2)
    s = Lsp.run h ((frames.map (·.2)).zipIdx.filterMap fun p => (decode p.1).map fun m => (choices p.2, m)) ∧
    bodies (written encode s) = (s.sent.map encode, false) := by
  have hb := C49_read frames [] hv (.inl rfl)
  rw [List.append_nil] at hb
  dsimp only
  constructor
  · unfold serve
    rw [hb]; rfl
  · have := C49 ((serve h decode choices (frames.flatMap fun f => frameBytes f.1 f.2)).sent.map encode) (by
      intro b hb; obtain ⟨s, _, rfl⟩ := List.mem_map.1 hb; exact he s)
    rw [List.flatMap_map] at this
    exact this

/-- The hypotheses of `C49_read` are met by a frame with two fields and a body that looks like a
frame, followed by a frame that is cut. -/
example : Valid [(b!"content-type", b!"application/vscode-jsonrpc; charset=utf-8 "), (b!"CONTENT-length", b!"21")]
      b!"Content-Length: 0\r\n\r\n" ∧
    bodies (frameBytes [(b!"content-type", b!"application/vscode-jsonrpc; charset=utf-8 "), (b!"CONTENT-length", b!"21")]
      b!"Content-Length: 0\r\n\r\n" ++ b!"Content-Length: 1\r\n\r") = ([b!"Content-Length: 0\r\n\r\n"], false) := by
  refine ⟨⟨?_, ?_, ?_, ?_⟩, by decide +kernel⟩
  · intro f hf
    simp only [List.mem_cons, List.not_mem_nil, or_false] at hf
    rcases hf with rfl | rfl <;> exact ⟨by simp, by decide⟩
  · intro f hf
    simp only [List.mem_cons, List.not_mem_nil, or_false] at hf
    rcases hf with rfl | rfl <;> (unfold FieldValue; decide)
  · exact ⟨b!"CONTENT-length", b!"21", by simp, by decide⟩
  · intro f hf hl
    simp only [List.mem_cons, List.not_mem_nil, or_false] at hf
    rcases hf with rfl | rfl
    · exact absurd hl (by decide)
    · exact formatUint_decimal 21 |> fun h => by
        have e : formatUint 21 = b!"21" := by decide +kernel
        rw [e] at h; exact h

end Teal.Props
