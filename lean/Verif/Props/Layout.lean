import Verif.Props.Instr

/-!
# C71: only the words of the lines matter
-/

namespace Teal.Props
open Teal Spec P

theorem version_words {ts us : List Token} (hw : ∀ k, (words ts k).map Token.v = (words us k).map Token.v) {k v : Nat}
    (h : VersionAt ts k v) : VersionAt us k v := by
  induction h with
  | first => exact .first
  | set k n h => exact .set k n (by rw [← hw k]; exact h)
  | keep k v _ hn ih => exact .keep k v ih (by rw [← hw k]; exact hn)

theorem last_carry (os : List LineOut) : (os.getLast?.map LineOut.next).getD ({} : Carry) = carryAt {} os os.length := by
  cases os with
  | nil => rfl
  | cons o os => rw [List.getLast?_eq_getElem?]; rfl

theorem layout_run {env : Env} {a b : Bytes} {os qs : List LineOut} (ha : Run env.addrOk {} (linesOf a) os)
    (hb : Run env.addrOk {} (linesOf b) qs) (hl : lineCount (tokens a) = lineCount (tokens b))
    (hw : ∀ k, (words (tokens a) k).map Token.v = (words (tokens b) k).map Token.v) :
    os.map (·.ctx.ops) = qs.map (·.ctx.ops) ∧ ((os.getLast?.map LineOut.next).getD ({} : Carry)).version = ((qs.getLast?.map LineOut.next).getD ({} : Carry)).version := by
  have h1 : ∀ k, k ≤ lineCount (tokens a) → (carryAt {} os k).version = (carryAt {} qs k).version := by
    intro k hk
    have h2 := (carry_version env.addrOk a os ha k hk _).2 rfl
    exact (carry_version env.addrOk b qs hb k (by rw [← show _ = lineCount (readTokens b).1 from hl]; exact hk) _).1 (version_words hw h2)
  have hla : os.length = lineCount (tokens a) := by rw [ha.length, linesOf_length]
  have hlb : qs.length = lineCount (tokens a) := by rw [hb.length, linesOf_length, hl]
  refine ⟨?_, ?_⟩
  · apply List.ext_getElem?
    intro k
    rw [List.getElem?_map, List.getElem?_map]
    by_cases hk : k < lineCount (tokens a)
    · obtain ⟨o, ho, he⟩ := line_ops env.addrOk a os ha k hk
      obtain ⟨q, hq, hf⟩ := line_ops env.addrOk b qs hb k (by rw [← show _ = lineCount (readTokens b).1 from hl]; exact hk)
      rw [ho, hq, Option.map_some, Option.map_some, he, hf, h1 k (Nat.le_of_lt hk)]
      rw [show (words (readTokens a).1 k).map Token.v = (words (readTokens b).1 k).map Token.v from hw k]
    · rw [List.getElem?_eq_none (by omega), List.getElem?_eq_none (by omega)]
  · rw [last_carry, last_carry, hla, hlb]
    exact h1 _ (Nat.le_refl _)

theorem run_names {addrOk : Bytes → Bool} {s : Carry} {ls : List (List Token)} {os : List LineOut} (h : Run addrOk s ls os) :
    (os.flatMap (·.ctx.refs)).map Token.v = (os.flatMap (·.ctx.ops)).flatMap Op.labels ∧
    (os.filterMap (·.sym)).map (·.name) = (os.flatMap (·.ctx.ops)).filterMap Op.labelName? := by
  induction h with
  | nil => exact ⟨rfl, rfl⟩
  | cons s line o ls os _ hf _ ih =>
    refine ⟨?_, ?_⟩
    · rw [List.flatMap_cons, List.map_append, ih.1, ← hf.labels, List.flatMap_cons, List.flatMap_append]
    · rw [List.flatMap_cons, List.filterMap_append, hf.defs, ← ih.2, List.filterMap_cons, hf.sym]
      cases labelHead line <;> rfl

/-- **C71** What a text is read to depends on the words of its lines alone: blanks
and comments change neither the listing, the version, nor what the linter finds, and
not whether there is a result at all. -/
theorem C71_layout (env : Env) (a b : Bytes) (hl : lineCount (tokens a) = lineCount (tokens b))
    (hw : ∀ k, (words (tokens a) k).map Token.v = (words (tokens b) k).map Token.v) :
    (process env a = none ↔ process env b = none) ∧
    ∀ r s, process env a = some r → process env b = some s →
      r.listing = s.listing ∧ r.version = s.version ∧ r.redundants = s.redundants ∧
      r.symbols.map (·.name) = s.symbols.map (·.name) ∧ r.symbolRefs.map Token.v = s.symbolRefs.map Token.v ∧
      r.missRefs.map Token.v = s.missRefs.map Token.v ∧
      ∀ rule k, (∃ d ∈ r.diagnostics, d.kind = .lint rule ∧ d.l = k) ↔ ∃ d ∈ s.diagnostics, d.kind = .lint rule ∧ d.l = k := by
  obtain ⟨os, ha, ea⟩ := process_eq env a
  obtain ⟨qs, hb, eb⟩ := process_eq env b
  obtain ⟨hops, hver⟩ := layout_run ha hb hl hw
  have hops' : os.flatMap (·.ctx.ops) = qs.flatMap (·.ctx.ops) := by
    rw [List.flatMap_def, hops, ← List.flatMap_def]
  have hlen : (linesOf a).length = (linesOf b).length := by rw [linesOf_length, linesOf_length]; exact hl
  rw [ea, eb]
  refine ⟨?_, ?_⟩
  · have key : ∀ (src : Bytes) (os : List LineOut), assemble env (readTokens src).2 (linesOf src) os = none ↔
        ¬ ∀ e ∈ lintErrs env.maps (os.flatMap (·.ctx.ops)), e.l < (linesOf src).length := by
      intro src os
      rw [← lintDiags_some]
      unfold assemble
      rw [Option.map_eq_none_iff]
      cases lintDiags (linesOf src) (lintErrs env.maps (os.flatMap (·.ctx.ops))) <;> simp
    rw [key, key, hops', hlen]
  · intro r s hr hs
    obtain ⟨lr, l1, l2, l3, l4, l5, l6, l7, -, -, l8, -⟩ := assemble_eq hr
    obtain ⟨ls, m1, m2, m3, m4, m5, m6, m7, -, -, m8, -⟩ := assemble_eq hs
    have hlist : r.listing = s.listing := by rw [l2, m2, hops']
    have hsym : r.symbols.map (·.name) = s.symbols.map (·.name) := by
      have e1 := congrArg (List.map Prod.fst) l5
      have e2 := congrArg (List.map Prod.fst) m5
      rw [List.map_map, List.map_map] at e1 e2
      have f1 := (run_names ha).2
      have f2 := (run_names hb).2
      rw [hops', ← f2] at f1
      exact e1.trans (f1.trans e2.symm)
    have hrefs : r.symbolRefs.map Token.v = s.symbolRefs.map Token.v := by
      rw [l4, m4, (run_names ha).1, (run_names hb).1, hops']
    refine ⟨hlist, by rw [l8, m8, hver], ?_, hsym, hrefs, ?_, ?_⟩
    · have : ∀ (src : Bytes) (os : List LineOut) r, assemble env (readTokens src).2 (linesOf src) os = some r →
          r.redundants = lintReds env.maps (os.flatMap (·.ctx.ops)) := by
        intro src os r h
        unfold assemble at h
        simp only [Option.map_eq_some_iff] at h
        obtain ⟨_, _, rfl⟩ := h
        rfl
      rw [this _ _ _ hr, this _ _ _ hs, hops']
    · have : ∀ (x : ProcessResult), x.missRefs = x.symbolRefs.filter (fun t => !(x.symbols.any fun s => s.name == t.v)) →
          x.missRefs.map Token.v = (x.symbolRefs.map Token.v).filter fun n => !((x.symbols.map (·.name)).any fun m => m == n) := by
        intro x hx
        rw [hx, List.filter_map]
        simp only [List.any_map]
        rfl
      rw [this r l6, this s m6, hrefs, hsym]
    · have key : ∀ (src : Bytes) (os : List LineOut) (r : ProcessResult), Run env.addrOk {} (linesOf src) os →
          assemble env (readTokens src).2 (linesOf src) os = some r → ∀ rule k,
          ((∃ d ∈ r.diagnostics, d.kind = .lint rule ∧ d.l = k) ↔ ∃ e ∈ lintErrs env.maps r.listing, e.rule = rule ∧ e.l = k) := by
        intro src os r hrun hr rule k
        obtain ⟨lr, l1, -, l3, -⟩ := assemble_eq hr
        have l4 := lintDiags_eq _ _ _ l1
        rw [l3]
        constructor
        · rintro ⟨d, hd, hk, hl⟩
          rcases List.mem_append.1 hd with hd | hd
          · rcases List.mem_append.1 hd with hd | hd
            · obtain ⟨e, _, rfl⟩ := List.mem_map.1 hd
              cases hk
            · obtain ⟨o, ho, hd⟩ := List.mem_flatMap.1 hd
              obtain ⟨s, line, -, hf⟩ := hrun.mem o ho
              rcases hf.diagKind d hd with h | ⟨w, h⟩
              · rw [hk] at h; cases h
              · rw [hk] at h; cases h
          · rw [l4] at hd
            obtain ⟨e, he, rfl⟩ := List.mem_map.1 hd
            injection hk with hk
            exact ⟨e, he, hk, hl⟩
        · rintro ⟨e, he, hk, hl⟩
          refine ⟨_, List.mem_append_right _ (l4 ▸ List.mem_map.2 ⟨e, he, rfl⟩), by rw [hk], hl⟩
      intro rule k
      rw [key a os r ha hr, key b qs s hb hs, hlist]

/-- Two texts with other blanks and comments. -/
example : (words (tokens b!"byte \"a\"\n  b x // y\nx:") 1).map Token.v = (words (tokens b!"\tbyte \"a\" // z\nb\tx\nx:") 1).map Token.v ∧
    lineCount (tokens b!"byte \"a\"\n  b x // y\nx:") = lineCount (tokens b!"\tbyte \"a\" // z\nb\tx\nx:") ∧
    (words (tokens b!"byte \"a\"\n  b x // y\nx:") 0).map Token.v = (words (tokens b!"\tbyte \"a\" // z\nb\tx\nx:") 0).map Token.v := by
  decide +kernel

end Teal.Props
