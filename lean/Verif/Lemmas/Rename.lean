import Verif.Spec.Rename
import Verif.Lemmas.Lsp
import Verif.Props.Process

/-! # Lemmas about the labels of a text and the answers about them -/

namespace Teal.Lsp

open Teal Teal.Spec Teal.Lsp.Spec Teal.Props

/-- What is answered comes from the analysis of the text. -/
theorem answered {h : Host} {ms : List (Choice × Msg)} {u t : Bytes} {q : Query} {a : Result}
    (ha : Answered h ms u t q a) : ∃ ch mp r, process ⟨h.addrOk, mp⟩ t = some r ∧
      answer h ch (run h ms).st.config u t r q = some a := by
  obtain ⟨hrun, hopen, hup, ch, id, hs⟩ := ha
  have hsh : (run h ms).st.shutdown = false := by
    rw [← Bool.not_eq_true, shutdown_iff h ms hrun]; exact hup
  have inv := session_inv h ms hrun hsh
  obtain ⟨d, hd, rfl⟩ := (inv.texts u t).1 hopen
  rw [run_running hrun] at hs
  simp only [handle, handleRequest, hsh, Bool.false_eq_true, if_false, hd] at hs
  cases hres : results h ch (run h ms).st u d with
  | none => rw [hres] at hs; simp at hs
  | some x =>
    obtain ⟨st', r⟩ := x
    simp only [hres] at hs
    have hc := (results_same hres).1.config
    cases hans : answer h ch st'.config u d.s r q with
    | none => rw [hans] at hs; simp at hs
    | some b =>
      rw [hans] at hs
      simp only [Option.map_some, List.append_cancel_left_eq, List.cons.injEq, Sent.reply.injEq, true_and, and_true] at hs
      subst hs
      rw [hc] at hans
      rcases results_spec hres with ⟨h1, _⟩ | ⟨_, h1, _⟩
      · obtain ⟨x, _, hp⟩ := inv.cache u d r hd h1
        exact ⟨ch, _, r, hp, hans⟩
      · exact ⟨ch, _, r, h1, hans⟩

theorem overlaps_pos {p : Pos} {l b e : Nat} :
    Overlaps p.range ⟨l, b, l, e⟩ = true ↔ p.line = l ∧ b ≤ p.character ∧ p.character ≤ e := by
  unfold Overlaps Pos.range
  constructor
  · intro h
    simp at h
    omega
  · rintro ⟨h1, h2, h3⟩
    simp
    omega

theorem words_pairwise (src : Bytes) (k : Nat) :
    (words (tokens src) k).Pairwise fun a b => a.e ≤ b.b := by
  have h := (readTokens_lines src).2.2.sublist (List.filter_sublist (p := fun t => decide (t.l = k) && decide (t.t = .value)))
  refine h.imp_of_mem ?_
  intro a b ha hb hab
  have h1 := (mem_words.1 ha).2.1
  have h2 := (mem_words.1 hb).2.1
  exact hab (h1.trans h2.symm)

theorem labelOperands_sublist (ws : List Token) : (labelOperands ws).Sublist ws := by
  cases ws with
  | nil => exact .slnil
  | cons t rest =>
    simp only [labelOperands]
    split
    · exact ((List.take_sublist _ _).cons _)
    · split
      · exact (List.Sublist.refl _).cons _
      · exact List.nil_sublist _

/-- A line that defines a label refers to none. -/
theorem labelWord_operands {ts : List Token} {k : Nat} {t : Token} (h : labelWord ts k = some t) :
    labelOperands (words ts k) = [] := by
  have h2 := (labelWord_some h).2.1
  unfold labelWord at h
  rw [Option.filter_eq_some_iff] at h
  obtain ⟨rest, hr⟩ := List.head?_eq_some_iff.1 h.1
  rw [hr]
  have hc : t.v.getLast? = some chColon := by rw [h2]; simp
  simp only [labelOperands]
  rw [if_neg, if_neg]
  · intro hm; simp only [List.mem_cons, List.not_mem_nil, or_false] at hm
    rcases hm with h | h <;> rw [h] at hc <;> revert hc <;> decide
  · intro hm; simp only [List.mem_cons, List.not_mem_nil, or_false] at hm
    rcases hm with h | h | h | h <;> rw [h] at hc <;> revert hc <;> decide

theorem mem_symbols {env : Env} {src : Bytes} {r : ProcessResult} (h : process env src = some r) (n : Bytes) (l b e : Nat) :
    (∃ s ∈ r.symbols, s.name = n ∧ s.l = l ∧ s.b = b ∧ s.e = e) ↔
      ∃ t, labelWord (tokens src) l = some t ∧ labelName t.v = some n ∧ t.b = b ∧ t.e = e := by
  have hsym := C20_symbols env src r h
  constructor
  · rintro ⟨s, hs, rfl, rfl, rfl, rfl⟩
    have : (s.name, s.l, s.b, s.e) ∈ r.symbols.map (fun s => (s.name, s.l, s.b, s.e)) :=
      List.mem_map.2 ⟨s, hs, rfl⟩
    rw [hsym] at this
    obtain ⟨w, hw, he⟩ := List.mem_map.1 this
    obtain ⟨k, -, hk⟩ := List.mem_filterMap.1 hw
    have hp := C20_position src k w hk
    simp only [Prod.mk.injEq] at he
    have h2 := labelWord_some hk
    refine ⟨w, ?_, ?_, he.2.2.1, he.2.2.2⟩
    · rw [← he.2.1, hp.2.1]; exact hk
    · rw [labelName_eq, ← he.1]; exact h2.2
  · rintro ⟨w, hw, hn, rfl, rfl⟩
    have hp := C20_position src l w hw
    have : (w.v.dropLast, w.l, w.b, w.e) ∈ r.symbols.map (fun s => (s.name, s.l, s.b, s.e)) := by
      rw [hsym]
      exact List.mem_map.2 ⟨w, List.mem_filterMap.2 ⟨l, List.mem_range.2 (labelWord_lt hw), hw⟩, rfl⟩
    obtain ⟨s, hs, he⟩ := List.mem_map.1 this
    simp only [Prod.mk.injEq] at he
    refine ⟨s, hs, ?_, by rw [he.2.1, hp.2.1], he.2.2.1, he.2.2.2⟩
    rw [labelName_eq] at hn
    rw [he.1, hn.1, List.dropLast_concat]

theorem mem_refs {env : Env} {src : Bytes} {r : ProcessResult} (h : process env src = some r) (t : Token) :
    t ∈ r.symbolRefs ↔ t ∈ labelOperands (words (tokens src) t.l) := by
  rw [C21_references env src r h, List.mem_flatMap]
  constructor
  · rintro ⟨k, _, hk⟩
    have := (mem_words.1 ((labelOperands_sublist _).subset hk)).2.1
    rw [this]; exact hk
  · intro hk
    refine ⟨t.l, List.mem_range.2 (words_lt ?_), hk⟩
    intro hn
    rw [hn] at hk; cases hk

theorem symbols_ordered {env : Env} {src : Bytes} {r : ProcessResult} (h : process env src = some r) :
    r.symbols.Pairwise fun a b => a.l < b.l := by
  have hsym := C20_symbols env src r h
  have hp : ((List.range (lineCount (tokens src))).filterMap (labelWord (tokens src))).Pairwise fun a b => a.l < b.l := by
    rw [List.pairwise_filterMap]
    refine List.pairwise_lt_range.imp ?_
    intro a b hab x hx y hy
    have h1 := (C20_position src a x hx).2.1
    have h2 := (C20_position src b y hy).2.1
    omega
  have hp2 := (List.pairwise_map (f := fun t : Token => (t.v.dropLast, t.l, t.b, t.e))
    (R := fun a b => a.2.1 < b.2.1)).2 hp
  rw [← hsym] at hp2
  exact (List.pairwise_map (f := fun s : LabelSym => (s.name, s.l, s.b, s.e))
    (R := fun a b => a.2.1 < b.2.1)).1 hp2

theorem symbols_pairwise {env : Env} {src : Bytes} {r : ProcessResult} (h : process env src = some r) :
    r.symbols.Pairwise fun a b => a.l ≠ b.l :=
  (symbols_ordered h).imp fun hab => Nat.ne_of_lt hab

theorem refs_pairwise {env : Env} {src : Bytes} {r : ProcessResult} (h : process env src = some r) :
    r.symbolRefs.Pairwise fun a b => a.l = b.l → a.e ≤ b.b := by
  rw [C21_references env src r h]
  rw [List.pairwise_flatMap]
  constructor
  · intro k _
    refine ((words_pairwise src k).sublist (labelOperands_sublist _)).imp ?_
    intro a b h _
    exact h
  · refine List.nodup_range.imp ?_
    intro a b hab x hx y hy hxy
    have h1 := (mem_words.1 ((labelOperands_sublist _).subset hx)).2.1
    have h2 := (mem_words.1 ((labelOperands_sublist _).subset hy)).2.1
    omega

theorem sym_ref_lines {env : Env} {src : Bytes} {r : ProcessResult} (h : process env src = some r) {s : LabelSym}
    {t : Token} (hs : s ∈ r.symbols) (ht : t ∈ r.symbolRefs) : s.l ≠ t.l := by
  intro he
  obtain ⟨w, hw, _⟩ := (mem_symbols h s.name s.l s.b s.e).1 ⟨s, hs, rfl, rfl, rfl, rfl⟩
  have := (mem_refs h t).1 ht
  rw [← he, labelWord_operands hw] at this
  cases this

/-- The words under the cursor are those the analysis finds there. -/
theorem under_iff {env : Env} {src : Bytes} {r : ProcessResult} (h : process env src = some r) (p : Pos) (t : Token) (n : Bytes) :
    Under (tokens src) p t n ↔ (∃ s ∈ r.symbolsWithin p.range, labelWord (tokens src) t.l = some t ∧ s.name = n ∧ s.l = t.l ∧ s.b = t.b ∧ s.e = t.e) ∨
      (t ∈ r.symbolRefsWithin p.range ∧ n = t.v) := by
  constructor
  · rintro (⟨_, ht, hn, hp⟩ | ⟨ht, hp⟩)
    · left
      obtain ⟨s, hs, h1, h2, h3, h4⟩ := (mem_symbols h n t.l t.b t.e).2 ⟨t, ht, hn, rfl, rfl⟩
      refine ⟨s, List.mem_filter.2 ⟨hs, ?_⟩, ht, h1, h2, h3, h4⟩
      rw [LabelSym.range, overlaps_pos, h2, h3, h4]; exact hp
    · right
      refine ⟨List.mem_filter.2 ⟨(mem_refs h t).2 ht, ?_⟩, rfl⟩
      rw [Token.range, overlaps_pos]; exact hp
  · rintro (⟨s, hs, hw, rfl, h2, h3, h4⟩ | ⟨ht, rfl⟩)
    · obtain ⟨hs, ho⟩ := List.mem_filter.1 hs
      rw [LabelSym.range, overlaps_pos, h2, h3, h4] at ho
      obtain ⟨w, h5, h6, _, _⟩ := (mem_symbols h s.name s.l s.b s.e).1 ⟨s, hs, rfl, rfl, rfl, rfl⟩
      rw [h2, hw] at h5
      cases h5
      exact .definition t _ hw h6 ho
    · obtain ⟨ht, ho⟩ := List.mem_filter.1 ht
      rw [Token.range, overlaps_pos] at ho
      exact .reference t ((mem_refs h t).1 ht) ho

theorem under_symbol {env : Env} {src : Bytes} {r : ProcessResult} (h : process env src = some r) {p : Pos} {s : LabelSym}
    (hs : s ∈ r.symbolsWithin p.range) : ∃ t, Under (tokens src) p t s.name ∧ s.l = t.l ∧ s.b = t.b ∧ s.e = t.e := by
  obtain ⟨w, h5, h6, h7, h8⟩ := (mem_symbols h s.name s.l s.b s.e).1 ⟨s, (List.mem_filter.1 hs).1, rfl, rfl, rfl, rfl⟩
  have h9 := (C20_position src s.l w h5).2.1
  exact ⟨w, (under_iff h p w s.name).2 (.inl ⟨s, hs, by rw [h9]; exact h5, rfl, h9.symm, h7.symm, h8.symm⟩),
    h9.symm, h7.symm, h8.symm⟩

theorem under_token {src : Bytes} {p : Pos} {t : Token} {n : Bytes} (h : Under (tokens src) p t n) :
    t ∈ words (tokens src) t.l ∧ On p t := by
  cases h with
  | definition n ht hn hp => exact ⟨(labelWord_some ht).1, hp⟩
  | reference ht hp => exact ⟨(labelOperands_sublist _).subset ht, hp⟩

theorem labelSym_ext_pos {r : List LabelSym} (hp : r.Pairwise fun a b => a.l ≠ b.l) {a b : LabelSym} (ha : a ∈ r) (hb : b ∈ r)
    (h : a.l = b.l) : a = b := by
  induction r with
  | nil => cases ha
  | cons x xs ih =>
    rw [List.pairwise_cons] at hp
    rcases List.mem_cons.1 ha with rfl | ha
    · rcases List.mem_cons.1 hb with rfl | hb
      · rfl
      · exact absurd h (hp.1 b hb)
    · rcases List.mem_cons.1 hb with rfl | hb
      · exact absurd h.symm (hp.1 a (by assumption))
      · exact ih hp.2 ha hb

/-- Of the words of a line only one is strictly around the cursor. -/
theorem under_inside {src : Bytes} {p : Pos} {t t' : Token} {n n' : Bytes} (h : Under (tokens src) p t n)
    (h' : Under (tokens src) p t' n') (hb : t.b < p.character) (he : p.character < t.e) : t' = t := by
  obtain ⟨h1, h2⟩ := under_token h
  obtain ⟨h1', h2'⟩ := under_token h'
  have hl : t'.l = t.l := by have := h2.1; have := h2'.1; omega
  rw [hl] at h1'
  have hp := words_pairwise src t.l
  have key : ∀ l : List Token, l.Pairwise (fun a b => a.e ≤ b.b) → t ∈ l → t' ∈ l → t' = t := by
    intro l hp ht ht'
    induction l with
    | nil => cases ht
    | cons x xs ih =>
      rw [List.pairwise_cons] at hp
      obtain ⟨_, g1, g2⟩ := h2
      obtain ⟨_, g3, g4⟩ := h2'
      rcases List.mem_cons.1 ht with rfl | ht
      · rcases List.mem_cons.1 ht' with rfl | ht'
        · rfl
        · have := hp.1 t' ht'; omega
      · rcases List.mem_cons.1 ht' with rfl | ht'
        · have := hp.1 t (by assumption); omega
        · exact ih hp.2 ht ht'
  exact key _ hp h1 h1'

end Teal.Lsp
