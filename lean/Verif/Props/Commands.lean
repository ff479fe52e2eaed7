import Verif.Props.Actions2
import Verif.Props.Prepare
import Verif.Lemmas.Version

/-!
# C132: what executing a command asks the client to change, and C84 for all texts
-/

namespace Teal.Lsp
open Teal Teal.Spec Teal.Lsp.Spec Teal.Props

theorem executed_unlabel {h : Host} {ms : List (Choice × Msg)} {u t : Bytes} {n : Bytes} {es : List TextEdit}
    (ha : Executed h ms u t (.labelRemove u n) es) : ∃ mp r, process ⟨h.addrOk, mp⟩ t = some r ∧
    es = (r.symByName n).map fun s => ⟨onLine s.l s.b s.e, []⟩ := by
  obtain ⟨ch, d, i, label, st, h1, h2, h3, h4, h5⟩ := executed ha
  simp only [execute, h1] at h3
  obtain ⟨⟨st', r⟩, hres, rfl⟩ := Option.map_eq_some_iff.1 h3
  obtain ⟨mp, hp⟩ := h5 st' r hres
  simp only [request, List.cons.injEq, Sent.applyEdit.injEq, and_true] at h4
  exact ⟨mp, r, hp, h4.2.2.2.symm⟩

/-- The symbols of a name, by their places. -/
theorem symByName_places {env : Env} {src : Bytes} {r : ProcessResult} (h : process env src = some r) (n : Bytes) :
    (r.symByName n).map (fun s => (⟨onLine s.l s.b s.e, []⟩ : TextEdit)) =
      (((List.range (lineCount (tokens src))).filterMap (labelWord (tokens src))).filter fun t => t.v.dropLast == n).map
        fun t => ⟨onLine t.l t.b t.e, []⟩ := by
  have hs := C20_symbols env src r h
  have e1 : (r.symByName n).map (fun s => (⟨onLine s.l s.b s.e, []⟩ : TextEdit)) =
      ((r.symbols.map fun s => (s.name, s.l, s.b, s.e)).filter fun x => x.1 == n).map fun x => ⟨onLine x.2.1 x.2.2.1 x.2.2.2, []⟩ := by
    rw [List.filter_map, List.map_map]
    rfl
  rw [e1, hs, List.filter_map, List.map_map]
  rfl

end Teal.Lsp

namespace Teal.Props
open Teal.Spec Teal.Lsp Teal.Lsp.Spec

/-- **C132** (lines).  Removing a line removes its text and its line break. -/
theorem C132_line (h : Host) (ms : List (Choice × Msg)) (u src : Bytes) (u' : Bytes) (l : Int) (es : List TextEdit)
    (ha : Executed h ms u src (.lineRemove u' l) es) : u' = u ∧ es = [⟨⟨⟨l, 0⟩, ⟨l + 1, 0⟩⟩, []⟩] := executed_remove ha

/-- **C132** (values).  Replacing a value replaces the given range by the given text. -/
theorem C132_value (h : Host) (ms : List (Choice × Msg)) (u src : Bytes) (u' : Bytes) (rg : Rg) (v : Bytes) (es : List TextEdit)
    (ha : Executed h ms u src (.valueReplace u' rg v) es) : u' = u ∧ es = [⟨rg, v⟩] := executed_replace ha

/-- **C132** (creating labels).  The label is written, on a line of its own, behind the lines of the text. -/
theorem C132_create (h : Host) (ms : List (Choice × Msg)) (u src n : Bytes) (es : List TextEdit)
    (ha : Executed h ms u src (.labelCreate u n) es) :
    es = [⟨⟨⟨lineCount (tokens src), 0⟩, ⟨lineCount (tokens src), n.length + 5⟩⟩, b!"\r\n" ++ n ++ b!":\r\n"⟩] := by
  rw [executed_create ha]
  simp [chCR, chLF, chColon]
  omega

/-- **C132** (removing labels).  The definitions of the label are removed, with their colons, in order, and nothing else. -/
theorem C132_unlabel (h : Host) (ms : List (Choice × Msg)) (u src n : Bytes) (es : List TextEdit)
    (ha : Executed h ms u src (.labelRemove u n) es) :
    es = (((List.range (lineCount (tokens src))).filterMap (labelWord (tokens src))).filter fun t => t.v.dropLast == n).map
      fun t => ⟨Lsp.onLine t.l t.b t.e, []⟩ := by
  obtain ⟨mp, r, hr, rfl⟩ := executed_unlabel ha
  exact symByName_places hr n

/-- **C132** (versions).  The number of the last version pragma is replaced; if there is none, a pragma is written in
front of the text. -/
theorem C132_version (h : Host) (ms : List (Choice × Msg)) (u src : Bytes) (v : Nat) (es : List TextEdit)
    (ha : Executed h ms u src (.versionUpdate u v) es) :
    (∃ k t, VersionWord (tokens src) k t ∧ (∀ j, k < j → ∀ t', ¬ VersionWord (tokens src) j t') ∧
      es = [⟨Lsp.onLine t.l t.b t.e, formatUint v⟩]) ∨
    ((∀ j t, ¬ VersionWord (tokens src) j t) ∧ es = [⟨Lsp.onLine 0 0 0, b!"#pragma version " ++ formatUint v ++ b!"\r\n"⟩]) := by
  obtain ⟨mp, r, hr, rfl⟩ := executed_version ha
  cases hvt : r.versionToken with
  | some t =>
    obtain ⟨k, h1, h2⟩ := (versionToken_iff hr t).1 hvt
    exact .inl ⟨k, t, h1, h2, rfl⟩
  | none =>
    refine .inr ⟨(versionToken_none hr).1 hvt, ?_⟩
    simp [chCR, chLF]

/-- **C84** (exactly).  The edit replaces as many lines of the text as the lexer sees in it; what is below them in the
editor, because strings went on over line breaks or the last string is not closed, stays behind the formatted text. -/
theorem C84_exact (h : Host) (ms : List (Choice × Msg)) (u src : Bytes) (a : Result) (ha : Answered h ms u src .formatting a) :
    ∃ e pre post, a = .textEdits [e] ∧ e = ⟨⟨⟨0, 0⟩, ⟨lineCount (tokens src), 0⟩⟩, h.format src⟩ ∧ src = pre ++ post ∧
      Applied src e (h.format src ++ post) ∧
      ((post = [] ∧ breaks src < lineCount (tokens src)) ∨
        (breaks pre = lineCount (tokens src) ∧ column pre = 0 ∧ ¬ (pre.getLast? = some chCR ∧ post.head? = some chLF))) := by
  obtain ⟨ch, mp, r, hr, hans⟩ := answered ha
  simp only [answer, Option.some.injEq] at hans
  rw [lines_length hr] at hans
  have hstart : Place src 0 0 0 := .there _ (at_here (pre := []) rfl rfl (by simp))
  by_cases hk : lineCount (tokens src) ≤ breaks src
  · obtain ⟨p, q, hsrc, hp, hB⟩ := line_start src _ hk
    refine ⟨_, p, q, hans.symm, rfl, hsrc, ⟨0, 0, _, 0, 0, p.length, rfl, hstart, .there _ ?_, Nat.zero_le _, ?_⟩, .inr ⟨hp, hB.column, hB.split⟩⟩
    · have := at_here (l := lineCount (tokens src)) (c := 0) hp.symm hB.column.symm hB.split
      rw [← hsrc] at this
      exact this
    · have hq : src.drop p.length = q := by
        generalize hn : p.length = k
        rw [hsrc, ← hn, List.drop_left]
      simp [hq]
  · refine ⟨_, src, [], hans.symm, rfl, by simp, ⟨0, 0, _, 0, 0, src.length, rfl, hstart, .textEnd (by omega), Nat.zero_le _, by simp⟩, .inl ⟨rfl, by omega⟩⟩

-- removing the label `x`, which is defined twice
example : Executed sampleHost (openSession b!"x:\nint 1\n x: // again\n#pragma version 3") b!"u" b!"x:\nint 1\n x: // again\n#pragma version 3"
    (.labelRemove b!"u" b!"x") [⟨Lsp.onLine 0 0 2, []⟩, ⟨Lsp.onLine 2 1 3, []⟩] :=
  open_executed _ _ b!"1" _ (by decide +kernel)

end Teal.Props
