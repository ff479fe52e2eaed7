import Verif.Props.Prepare
import Verif.Props.Shade

/-!
# Renaming between words that touch

C50 and C83 at any place.
-/

namespace Teal.Props
open Teal Teal.Spec Teal.Lsp Teal.Lsp.Spec P

/-- The word of a definition. -/
def symToken (s : LabelSym) : Token := { v := s.name ++ [chColon], l := s.l, b := s.b, e := s.e, t := .value }

theorem symToken_under {env : Env} {src : Bytes} {r : ProcessResult} (h : process env src = some r) {p : Lsp.Pos} {s : LabelSym}
    (hs : s ∈ r.symbolsWithin p.range) : Under (tokens src) p (symToken s) s.name ∧ labelWord (tokens src) s.l = some (symToken s) := by
  obtain ⟨w, h5, h6, h7, h8⟩ := (mem_symbols h s.name s.l s.b s.e).1 ⟨s, (List.mem_filter.1 hs).1, rfl, rfl, rfl, rfl⟩
  have h9 := (C20_position src s.l w h5).2.1
  have h10 : (words (tokens src) s.l).head? = some w := by
    unfold labelWord at h5
    exact (Option.filter_eq_some_iff.1 h5).1
  have hw : w = symToken s := by
    have hv := (mem_words.1 (List.mem_of_mem_head? h10)).2.2
    have hn := (labelName_eq.1 h6).1
    obtain ⟨v, l, b, e, t⟩ := w
    simp only [symToken, Token.mk.injEq] at *
    exact ⟨hn, h9, h7, h8, hv⟩
  subst hw
  exact ⟨(under_iff h p _ s.name).2 (.inl ⟨s, hs, h5, rfl, rfl, rfl, rfl⟩), h5⟩

/-- **C50** (at any place.)  The edits of a rename are those for the words under the cursor that name a
label, one after the other: for each word, all definitions of its label and all references to it,
each once. -/
theorem C50_exact (h : Host) (ms : List (Choice × Msg)) (u src : Bytes) (p : Lsp.Pos) (new : Bytes) (a : Result)
    (ha : Answered h ms u src (.rename p new) a) :
    ∃ (ws : List (Token × Bytes)) (es : Token × Bytes → List TextEdit), ws.Nodup ∧ (∀ t n, (t, n) ∈ ws ↔ Under (tokens src) p t n) ∧
      (∀ w ∈ ws, RenamesAll src w.2 new (es w)) ∧ a = .workspaceEdit u (ws.flatMap es) := by
  obtain ⟨ch, mp, r, hr, hans⟩ := answered ha
  simp only [answer, Option.some.injEq] at hans
  refine ⟨(r.symbolsWithin p.range).map (fun s => (symToken s, s.name)) ++ (r.symbolRefsWithin p.range).map (fun t => (t, t.v)),
    fun w => renameEdits r new w.2, ?_, ?_, ?_, ?_⟩
  · rw [List.nodup_append]
    refine ⟨?_, ?_, ?_⟩
    · refine List.pairwise_map.2 (((symbols_pairwise hr).sublist List.filter_sublist).imp ?_)
      intro a b hab he
      have := congrArg (fun x : Token × Bytes => x.1.l) he
      simp only [symToken] at this
      omega
    · refine List.pairwise_map.2 (List.Pairwise.imp_of_mem ?_ ((refs_pairwise hr).sublist List.filter_sublist))
      intro a b ha hb hab he
      injection he with he _
      subst he
      have hu := (under_iff hr p a a.v).2 (.inr ⟨ha, rfl⟩)
      have hm := mem_words.1 (under_token hu).1
      have := value_width hm.1 hm.2.2
      have := hab rfl
      omega
    · intro x hx y hy he
      obtain ⟨s, hs, rfl⟩ := List.mem_map.1 hx
      obtain ⟨t, ht, rfl⟩ := List.mem_map.1 hy
      have := sym_ref_lines hr (List.mem_filter.1 hs).1 (List.mem_filter.1 ht).1
      have := congrArg (fun x : Token × Bytes => x.1.l) he
      simp only [symToken] at this
      omega
  · intro t n
    rw [List.mem_append, List.mem_map, List.mem_map, under_iff hr]
    constructor
    · rintro (⟨s, hs, he⟩ | ⟨t', ht, he⟩)
      · cases he
        exact .inl ⟨s, hs, (symToken_under hr hs).2, rfl, rfl, rfl, rfl⟩
      · cases he
        exact .inr ⟨ht, rfl⟩
    · rintro (⟨s, hs, hl, rfl, h1, h2, h3⟩ | ⟨ht, rfl⟩)
      · refine .inl ⟨s, hs, ?_⟩
        have := (symToken_under hr hs).2
        rw [h1, hl] at this
        injection this with this
        rw [this]
      · exact .inr ⟨t, ht, rfl⟩
  · intro w _
    refine ⟨?_, mem_renameEdits hr new w.2, renameEdits_apart hr new w.2⟩
    intro e he
    rcases List.mem_append.1 he with he | he <;> obtain ⟨x, _, rfl⟩ := List.mem_map.1 he <;> rfl
  · rw [← hans, List.flatMap_append, List.flatMap_map, List.flatMap_map]

/-- Between two references, the edits come twice. -/
example : Answered sampleHost (openSession b!"match \"x\"\"x\"") b!"u" b!"match \"x\"\"x\"" (.rename ⟨0, 9⟩ b!"y")
      (.workspaceEdit b!"u" [⟨Lsp.onLine 0 6 9, b!"y"⟩, ⟨Lsp.onLine 0 9 12, b!"y"⟩, ⟨Lsp.onLine 0 6 9, b!"y"⟩, ⟨Lsp.onLine 0 9 12, b!"y"⟩]) :=
  open_answered _ _ _ (by decide +kernel)

/-- **C83** (exactly.)  What is shown is where the label is, unless the word is a quoted reference that is
longer than what it stands for. -/
theorem C83_exact (h : Host) (ms : List (Choice × Msg)) (u src : Bytes) (p : Lsp.Pos) (a : Result)
    (ha : Answered h ms u src (.prepareRename p) a) :
    (a = .emptyObject ∧ ¬ ∃ t n, Under (tokens src) p t n) ∨
    ∃ t n, Under (tokens src) p t n ∧ a = .prepareRename (Lsp.onLine t.l t.b (t.b + n.length)) n ∧
      (Occurs (tokens src) n t.l t.b (t.b + n.length) ↔ (labelWord (tokens src) t.l = some t ∨ t.e = t.b + n.length)) := by
  rcases C83_partial h ms u src p a ha with h1 | ⟨t, n, hu, h1, -⟩
  · exact .inl h1
  · refine .inr ⟨t, n, hu, h1, ?_, ?_⟩
    · intro hocc
      generalize ht : t.b + n.length = e at hocc
      generalize hb : t.b = b at hocc
      generalize hl : t.l = l at hocc
      cases hocc with
      | definition w hw hn =>
        left
        have h2 := (C20_position src l w hw).2.1
        have h3 : (words (tokens src) l).head? = some w := by
          unfold labelWord at hw
          exact (Option.filter_eq_some_iff.1 hw).1
        have hwm := mem_words.1 (List.mem_of_mem_head? h3)
        have htm := mem_words.1 (under_token hu).1
        rw [hw]
        have hwd := value_width hwm.1 hwm.2.2
        have htd := value_width htm.1 htm.2.2
        have hp := words_pairwise src l
        have htw := (under_token hu).1
        rw [hl] at htw
        cases hws : words (tokens src) l with
        | nil => rw [hws] at htw; cases htw
        | cons x rest =>
          rw [hws] at htw h3 hp
          injection h3 with h3
          subst h3
          rcases List.mem_cons.1 htw with h4 | h4
          · rw [h4]
          · have := (List.pairwise_cons.1 hp).1 t h4
            omega
      | reference w hw hn =>
        right
        have hwm := (labelOperands_sublist _).subset hw
        have hwt := mem_words.1 hwm
        have htm := mem_words.1 (under_token hu).1
        have hwd := value_width hwt.1 hwt.2.2
        have htd := value_width htm.1 htm.2.2
        have htw := (under_token hu).1
        rw [hl] at htw
        have hp := words_pairwise src l
        rw [List.pairwise_iff_getElem] at hp
        obtain ⟨i, hi1, hi2⟩ := List.getElem_of_mem hwm
        obtain ⟨j, hj1, hj2⟩ := List.getElem_of_mem htw
        rcases Nat.lt_trichotomy i j with hlt | rfl | hgt
        · have := hp i j hi1 hj1 hlt
          rw [hi2, hj2] at this
          omega
        · rw [hi2] at hj2
          rw [← hj2]
        · have := hp j i hj1 hi1 hgt
          rw [hi2, hj2] at this
          omega
    · intro hor
      cases hu with
      | definition _ hd hn hp => exact .definition _ t hd hn
      | reference ht hp =>
        rcases hor with h2 | h2
        · have h3 : (words (tokens src) t.l).head? = some t := by
            unfold labelWord at h2
            exact (Option.filter_eq_some_iff.1 h2).1
          have hnd := words_nodup src t.l
          cases hws : words (tokens src) t.l with
          | nil => rw [hws] at h3; cases h3
          | cons x rest =>
            rw [hws] at h3 hnd ht
            injection h3 with h3
            subst h3
            refine absurd ?_ (List.nodup_cons.1 hnd).1
            rw [labelOperands] at ht
            split at ht
            · exact List.mem_of_mem_take ht
            · split at ht
              · exact ht
              · cases ht
        · rw [← h2]; exact .reference _ t ht rfl

end Teal.Props
