import Verif.Lemmas.Edit
import Verif.Props.Rename
import Verif.Props.Print

/-! # Replacing words of a text, and what the text is read to -/

namespace Teal.Lsp

open Teal Teal.Spec Teal.Lsp.Spec Teal.Props

theorem pairwise_ext {α : Type} {R : α → α → Prop} (hR : ∀ a b, R a b → ¬ R b a) {l l' : List α} (h : l.Pairwise R)
    (h' : l'.Pairwise R) (hm : ∀ a, a ∈ l ↔ a ∈ l') : l = l' := by
  induction l generalizing l' with
  | nil =>
    cases l' with
    | nil => rfl
    | cons b bs => exact absurd ((hm b).2 (by simp)) (by simp)
  | cons a as ih =>
    cases l' with
    | nil => exact absurd ((hm a).1 (by simp)) (by simp)
    | cons b bs =>
      rw [List.pairwise_cons] at h h'
      have hab : a = b := by
        rcases List.mem_cons.1 ((hm a).1 (by simp)) with h1 | h1
        · exact h1
        · rcases List.mem_cons.1 ((hm b).2 (by simp)) with h2 | h2
          · exact h2.symm
          · exact absurd (h.1 b h2) (hR _ _ (h'.1 a h1))
      subst hab
      rw [ih h.2 h'.2]
      intro x
      constructor
      · intro hx
        rcases List.mem_cons.1 ((hm x).1 (by simp [hx])) with rfl | h1
        · exact absurd (h.1 x hx) (hR _ _ (h.1 x hx))
        · exact h1
      · intro hx
        rcases List.mem_cons.1 ((hm x).2 (by simp [hx])) with rfl | h1
        · exact absurd (h'.1 x hx) (hR _ _ (h'.1 x hx))
        · exact h1

theorem isCut_unique {src : Bytes} {e : TextEdit} {a b : Cut} (ha : IsCut src e a) (hb : IsCut src e b) : a = b := by
  obtain ⟨l, c, l', c', h1, h2, h3, h4⟩ := ha
  obtain ⟨m, d, m', d', h1', h2', h3', h4'⟩ := hb
  rw [h1] at h1'
  simp only [Rg.mk.injEq, Pos.mk.injEq, Int.ofNat_inj] at h1'
  obtain ⟨⟨rfl, rfl⟩, rfl, rfl⟩ := h1'
  cases a; cases b
  simp only [Cut.mk.injEq]
  exact ⟨at_unique h2 h2', at_unique h3 h3', h4.symm.trans h4'⟩

theorem forall2_filter {α β γ : Type} {R : α → β → Prop} {p : α → Bool} {q : β → Bool} {g : α → γ} {g' : β → γ}
    (hp : ∀ a b, R a b → p a = q b) (hg : ∀ a b, R a b → g' b = g a) {as : List α} {bs : List β} (h : Forall2 R as bs) :
    (bs.filter q).map g' = (as.filter p).map g := by
  induction h with
  | nil => rfl
  | cons h _ ih =>
    rw [List.filter_cons, List.filter_cons, hp _ _ h]
    split
    · rw [List.map_cons, List.map_cons, ih, hg _ _ h]
    · exact ih

theorem forall2_last {α β γ : Type} {R : α → β → Prop} {g : α → γ} {g' : β → γ} (hg : ∀ a b, R a b → g' b = g a)
    {as : List α} {bs : List β} (h : Forall2 R as bs) : bs.getLast?.map g' = as.getLast?.map g := by
  have : bs.map g' = as.map g := by
    induction h with
    | nil => rfl
    | cons h _ ih => rw [List.map_cons, List.map_cons, ih, hg _ _ h]
  rw [← List.getLast?_map, ← List.getLast?_map, this]

/-- Replacing words of a text. -/
theorem edit_tokens (f : Plan) (src : Bytes) (hf : ∀ t ∈ tokens src, f.Fits t)
    (hone : ∀ t ∈ tokens src, t.t = .value → ∀ x ∈ t.v, ¬ Break x) (es : List TextEdit)
    (hes : ∀ e, e ∈ es ↔ ∃ t ∈ tokens src, ∃ k x w, f t = some (k, x, w) ∧ e = ⟨Lsp.onLine t.l t.b ((t.b + k : Nat) : Int), x⟩) :
    ∃ src', Edited src es src' ∧ lineCount (tokens src') = lineCount (tokens src) ∧
      (∀ k, (words (tokens src') k).map Token.v = (words (tokens src) k).map f.value) ∧
      ∀ k, (comments (tokens src') k).map Token.v = (comments (tokens src) k).map f.value := by
  obtain ⟨err, hlex, -⟩ := readTokens_lexes src
  obtain ⟨cuts, h1, h2, h3, h4, -, -, h5⟩ := lexes_edit f hlex [] (by simp) rfl rfl hf hone
  obtain ⟨ts', err', h6, h7⟩ := h5 0
  simp only [List.nil_append, List.length_nil] at h1 h3 h4 h6
  have hts : tokens (splice 0 cuts src) = ts' := by
    have := (C01_grammar (splice 0 cuts src) ts' _).2 ⟨err', h6, rfl⟩
    unfold tokens; rw [this]
  refine ⟨splice 0 cuts src, ⟨cuts, ?_, ?_, fun c hc => (h1 c hc).2, h2, rfl⟩, ?_, ?_, ?_⟩
  · intro e he
    obtain ⟨t, ht, k, x, w, hft, rfl⟩ := (hes e).1 he
    obtain ⟨q, hq, k', x', w', hft', h8, h9, h10, h11⟩ := h4 t ht (by rw [hft]; rfl)
    rw [hft] at hft'
    simp only [Option.some.injEq, Prod.mk.injEq] at hft'
    obtain ⟨rfl, rfl, rfl⟩ := hft'
    exact ⟨q, hq, t.l, t.b, t.l, t.b + k, rfl, h8, h9, h10.symm⟩
  · intro q hq
    obtain ⟨t, ht, k, x, w, hft, h8, h9, h10, h11⟩ := h3 q hq
    exact ⟨_, (hes _).2 ⟨t, ht, k, x, w, hft, rfl⟩, t.l, t.b, t.l, t.b + k, rfl, h8, h9, h10.symm⟩
  · rw [hts]
    unfold lineCount
    rw [forall2_last (g := fun t : Token => t.l + 1) (fun a b h => by rw [h.1]) h7]
  · intro k
    rw [hts]
    refine forall2_filter ?_ ?_ h7
    · intro a b h; rw [h.1, h.2.1]
    · intro a b h; exact h.2.2
  · intro k
    rw [hts]
    refine forall2_filter ?_ ?_ h7
    · intro a b h; rw [h.1, h.2.1]
    · intro a b h; exact h.2.2

theorem edit_words (f : Plan) (src : Bytes) (hf : ∀ t ∈ tokens src, f.Fits t)
    (hone : ∀ t ∈ tokens src, t.t = .value → ∀ x ∈ t.v, ¬ Break x) (es : List TextEdit)
    (hes : ∀ e, e ∈ es ↔ ∃ t ∈ tokens src, ∃ k x w, f t = some (k, x, w) ∧ e = ⟨Lsp.onLine t.l t.b ((t.b + k : Nat) : Int), x⟩) :
    ∃ src', Edited src es src' ∧ lineCount (tokens src') = lineCount (tokens src) ∧
      ∀ k, (words (tokens src') k).map Token.v = (words (tokens src) k).map f.value := by
  obtain ⟨src', h1, h2, h3, -⟩ := edit_tokens f src hf hone es hes
  exact ⟨src', h1, h2, h3⟩

/-- What the lines of a text are read to. -/
theorem listing_ops {env : Env} {src : Bytes} {r : ProcessResult} (h : process env src = some r) (hs : NoSurplus r) :
    r.listing.length = lineCount (tokens src) ∧ VersionAt (tokens src) r.listing.length r.version ∧
    (∀ (k ver : Nat), k ≤ lineCount (tokens src) → VersionAt (tokens src) k ver → ∀ ver', VersionAt (tokens src) k ver' → ver = ver') ∧
    ∀ (k ver : Nat) (o : Op), r.listing[k]? = some o → VersionAt (tokens src) k ver →
      opsOf env.addrOk ver ((words (tokens src) k).map Token.v) = [o] := by
  obtain ⟨qs, hr, he⟩ := process_eq env src
  rw [he] at h
  have hone := noSurplus_ops hr (noSurplus_lines h hs)
  obtain ⟨lds, l1, l2, l3, -, -, -, -, -, -, l8, -⟩ := assemble_eq h
  have hlen : r.listing.length = lineCount (tokens src) := by
    rw [l2, one_op_length hone, hr.length, linesOf_length]
  have hqs : qs.length = r.listing.length := by rw [hlen, hr.length, linesOf_length]
  have hunique : ∀ (k ver : Nat), k ≤ lineCount (tokens src) → VersionAt (tokens src) k ver → ∀ ver', VersionAt (tokens src) k ver' → ver = ver' := by
    intro k v hk h1 v' h2
    rw [(carry_version env.addrOk src qs hr k hk _).1 h1, (carry_version env.addrOk src qs hr k hk _).1 h2]
  refine ⟨hlen, ?_, hunique, ?_⟩
  · rw [l8, last_carry, hqs]
    exact (carry_version env.addrOk _ qs hr r.listing.length (Nat.le_of_eq hlen) _).2 rfl
  · intro k ver o ho hver
    have hk : k < lineCount (tokens src) := by rw [← hlen]; exact (List.getElem?_eq_some_iff.1 ho).1
    obtain ⟨q, h1, h2⟩ := line_ops env.addrOk src qs hr k hk
    obtain ⟨op, h3⟩ := hone q (List.mem_of_getElem? h1)
    rw [l2, one_op hone k q h1, h3] at ho
    injection ho with ho
    subst ho
    rw [(carry_version env.addrOk src qs hr k (Nat.le_of_lt hk) _).1 hver, ← show q.ctx.ops = _ from h2, h3]

end Teal.Lsp
