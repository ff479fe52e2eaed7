import Verif.Lemmas.Json2

/-!
# C100: JSON texts
-/

namespace Teal.Props

open Teal Teal.JsonSpec

/-- Whatever white space and escapes a client uses, a JSON text is read as the value it stands for. -/
theorem C100_understood {n : Nat} {s : Bytes} {j : Json} (h : Spells n s j) (hn : n ≤ 10000) : Json.parse s = some j :=
  parse_complete h hn

/-- `{"a" : [1, "\\u0041\\n"]}` with white space in many places. -/
example : Spells 2 b!" {\"a\" :\t[1, \"\\u0041\\n\"]}" (.obj [(b!"a", .arr [.num b!"1", .str b!"A\n"])]) := by
  refine ⟨b!" ", b!"{\"a\" :\t[1, \"\\u0041\\n\"]}", [], by decide, ?_, by decide, rfl⟩
  have hA : Chars False b!"\\u0041\\n" b!"A\n" :=
    .code (h := b!"0041") (n := 65) (.mk (.digit (c := 48) (by decide) (by decide)) (.digit (c := 48) (by decide) (by decide))
      (.digit (c := 52) (by decide) (by decide)) (.digit (c := 49) (by decide) (by decide))) (.inl (by decide)) (.short .n .nil)
  have hn : JsonNumber b!"1" := ⟨[], b!"1", [], [], rfl, .inl rfl, .inr ⟨⟨by decide, by decide⟩, by decide⟩, .inl rfl, .inl rfl⟩
  have he : Spelled False 0 b!"1, \"\\u0041\\n\"" (.elements [.num b!"1", .str b!"A\n"]) :=
    .elements (a := []) (b := []) (t := b!" \"\\u0041\\n\"") (by decide) (.num hn) (by decide)
      (.element (a := b!" ") (b := []) (by decide) (.str hA) (by decide))
  exact .obj (.member (a := []) (k := b!"a") (b := b!" ") (c := b!"\t") (s := b!"[1, \"\\u0041\\n\"]") (d := [])
    (by decide) (.plain (n := 97) (.inl (by decide)) (by decide) (by decide) (by decide) .nil) (by decide) (by decide) (.arr he) (by decide))

/-- What is accepted is JSON, except for the spelling of characters in strings. -/
theorem C100_rejected {s : Bytes} {j : Json} (h : Json.parse s = some j) : SpellsLoosely 10000 s j := parse_sound h

example : Json.parse b!"{\"a\": 01}" = none ∧ Json.parse b!"[1,]" = none ∧ Json.parse b!"{} {}" = none ∧ Json.parse b!"\"\t\"" = none ∧
    (Json.parse b!"[1, 2]").isSome := by decide +kernel

/-- Strings that have been read are UTF-8. -/
theorem C100_utf8 {s : Bytes} {j : Json} (h : Json.parse s = some j) : Proper j := parse_proper h

/-- A byte that is not UTF-8 is read as the replacement character. -/
example : (Json.parse (b!"\"" ++ [255] ++ b!"\"")).map (·.text) = some (b!"\"" ++ [0xEF, 0xBF, 0xBD] ++ b!"\"") := by decide +kernel

/-- A text stands for one value. -/
theorem C100_unambiguous {n m : Nat} {s : Bytes} {j k : Json} (h : Spells n s j) (hn : n ≤ 10000) (h' : Spells m s k) (hm : m ≤ 10000) :
    j = k := by
  have := (parse_complete h hn).symm.trans (parse_complete h' hm)
  cases this; rfl

/-- What is written is a JSON text of the value, with replacement characters for what is not UTF-8 in its strings. -/
theorem C100_written {j : Json} (h : Numeric j) : ∃ n k, RepairedIn j k ∧ Spells n j.text k := by
  obtain ⟨n, k, h1, h2⟩ := text_repairs h
  exact ⟨n, k, h1, [], _, [], ws_nil, h2, ws_nil, by simp⟩

/-- If the strings are UTF-8, it is a text of the value itself. -/
theorem C100_written_same {j : Json} (h : Proper j) : ∃ n, Spells n j.text j := by
  obtain ⟨n, h2⟩ := text_spelled h
  exact ⟨n, [], _, [], ws_nil, h2, ws_nil, by simp⟩

example : Json.text (.obj [(b!"a<b", .arr [.num b!"1", .str (b!"\"\n" ++ [255, 7])])]) = b!"{\"a\\u003cb\":[1,\"\\\"\\n\\ufffd\\u0007\"]}" := by
  decide +kernel

theorem plain_chars : ∀ {s : Bytes}, (s.all fun c => 32 ≤ c.toNat && c.toNat < 128 && c.toNat ≠ 34 && c.toNat ≠ 92) = true → Chars False s s := by
  intro s
  induction s with
  | nil => intro _; exact .nil
  | cons c s ih =>
    intro h
    rw [List.all_cons, Bool.and_eq_true] at h
    have hc : 32 ≤ c.toNat ∧ c.toNat < 128 ∧ c.toNat ≠ 34 ∧ c.toNat ≠ 92 := by simpa [and_assoc] using h.1
    have e : utf8 c.toNat = [c] := by
      unfold utf8
      rw [if_pos hc.2.1]
      simp
    have := Chars.plain (loose := False) (n := c.toNat) (.inl (by omega)) (by omega) (by omega) (by omega) (ih h.2)
    rw [e] at this
    exact this

end Teal.Props
