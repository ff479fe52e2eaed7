import Verif.Props.Actions
import Verif.Lemmas.Version

/-!
# What the quick fixes for lines, labels and versions do

C80: removing a line.  C81: creating a label.  C82: changing the version.
-/

namespace Teal.Lsp
open Teal Teal.Spec Teal.Lsp.Spec Teal.Props

/-- One edit. -/
theorem applied_of_edited {src src' : Bytes} {e : TextEdit} (h : Edited src [e] src') : Applied src e src' := by
  obtain ⟨cuts, h1, h2, h3, h4, h5⟩ := h
  have hcut : ∀ c ∈ cuts, IsCut src e c := by
    intro c hc
    obtain ⟨e', he, h⟩ := h2 c hc
    rw [List.mem_singleton.1 he] at h
    exact h
  obtain ⟨c, hc, -⟩ := h1 e (by simp)
  match cuts, hc, hcut, h3, h4, h5 with
  | [c'], _, hcut, h3, _, h5 =>
    obtain ⟨l, b, l', b', g1, g2, g3, g4⟩ := hcut c' (by simp)
    refine ⟨l, b, l', b', _, _, g1, .there _ g2, .there _ g3, h3 c' (by simp), ?_⟩
    rw [h5, g4]
    rfl
  | c1 :: c2 :: rest, _, hcut, _, h4, _ =>
    have := isCut_unique (hcut c1 (by simp)) (hcut c2 (by simp))
    have h4 := (List.pairwise_cons.1 h4).1 c2 (by simp)
    rw [this] at h4
    omega

theorem executed_remove {h : Host} {ms : List (Choice × Msg)} {u t : Bytes} {u' : Bytes} {l : Int} {es : List TextEdit}
    (ha : Executed h ms u t (.lineRemove u' l) es) : u' = u ∧ es = [⟨⟨⟨l, 0⟩, ⟨l + 1, 0⟩⟩, []⟩] := by
  obtain ⟨ch, d, n, label, st, h1, h2, h3, h4, -⟩ := executed ha
  simp only [execute] at h3
  split at h3
  · cases h3; cases h4
  · cases h3
    simp only [request, List.cons.injEq, Sent.applyEdit.injEq, and_true] at h4
    exact ⟨h4.2.2.1, h4.2.2.2.symm⟩

theorem executed_create {h : Host} {ms : List (Choice × Msg)} {u t : Bytes} {n : Bytes} {es : List TextEdit}
    (ha : Executed h ms u t (.labelCreate u n) es) :
    es = [⟨⟨⟨lineCount (tokens t), 0⟩, ⟨lineCount (tokens t), ([chCR, chLF] ++ (n ++ [chColon, chCR, chLF])).length⟩⟩,
      [chCR, chLF] ++ (n ++ [chColon, chCR, chLF])⟩] := by
  obtain ⟨ch, d, i, label, st, h1, h2, h3, h4, h5⟩ := executed ha
  simp only [execute, h1] at h3
  obtain ⟨⟨st', r⟩, hres, rfl⟩ := Option.map_eq_some_iff.1 h3
  obtain ⟨mp, hp⟩ := h5 st' r hres
  simp only [request, List.cons.injEq, Sent.applyEdit.injEq, and_true] at h4
  rw [← h4.2.2.2, lines_length hp]

theorem executed_version {h : Host} {ms : List (Choice × Msg)} {u t : Bytes} {v : Nat} {es : List TextEdit}
    (ha : Executed h ms u t (.versionUpdate u v) es) : ∃ mp r, process ⟨h.addrOk, mp⟩ t = some r ∧
    es = [match r.versionToken with
           | some t => ⟨onLine t.l t.b t.e, formatUint v⟩
           | none => ⟨onLine 0 0 0, b!"#pragma version " ++ (formatUint v ++ [chCR, chLF])⟩] := by
  obtain ⟨ch, d, i, label, st, h1, h2, h3, h4, h5⟩ := executed ha
  simp only [execute, h1] at h3
  obtain ⟨⟨st', r⟩, hres, rfl⟩ := Option.map_eq_some_iff.1 h3
  obtain ⟨mp, hp⟩ := h5 st' r hres
  simp only [request, List.cons.injEq, Sent.applyEdit.injEq, and_true] at h4
  exact ⟨mp, r, hp, h4.2.2.2.symm⟩

/-- The line of a label or of a jump sets no version. -/
theorem dispensable_sets {env : Env} {src : Bytes} {r : ProcessResult} {k : Nat} (hr : process env src = some r) (hs : NoSurplus r)
    (hd : Dispensable r.listing k) : k < r.listing.length ∧ ∀ v, ¬ SetsVersion ((words (tokens src) k).map Token.v) v := by
  obtain ⟨o, ho, hp⟩ : ∃ o, r.listing[k]? = some o ∧ ∀ n, o ≠ .pragma n := by
    cases hd with
    | label n h hu => exact ⟨_, h, by simp⟩
    | jump n j h => exact ⟨_, h, by simp⟩
  have hk := (List.getElem?_eq_some_iff.1 ho).1
  refine ⟨hk, ?_⟩
  rintro v ⟨s, rest, h1, h2, h3, h4⟩
  obtain ⟨hlen, -, -, hl⟩ := listing_ops hr hs
  obtain ⟨V, hV⟩ := version_exists hr (k := k) (by omega)
  have := hl k V o ho hV
  rw [h1, opsOf, if_neg (by decide), if_pos rfl] at this
  have hread := (C11_int_literal _ _).2 ⟨h2, h4⟩
  simp only [pragmaOf, if_true, hread, if_neg (Nat.not_lt.2 h3), List.cons.injEq, and_true] at this
  exact hp _ this.symm

theorem intLiteral_unique {s : Bytes} {n m : Nat} (h1 : IntLiteral s n) (h2 : n < 2 ^ 64) (h3 : IntLiteral s m) (h4 : m < 2 ^ 64) : n = m := by
  have e1 := (C11_int_literal _ _).2 ⟨h1, h2⟩
  have e2 := (C11_int_literal _ _).2 ⟨h3, h4⟩
  rw [e1] at e2
  exact Option.some.inj e2

theorem versionAt_unique {ts : List Token} {k v : Nat} (h : VersionAt ts k v) : ∀ v', VersionAt ts k v' → v = v' := by
  induction h with
  | first => intro v' h; cases h; rfl
  | set k n h =>
    intro v' h'
    cases h' with
    | set _ _ h' =>
      obtain ⟨s, rest, g1, g2, g3, g4⟩ := h
      obtain ⟨s', rest', g1', g2', g3', g4'⟩ := h'
      rw [g1] at g1'
      simp only [List.cons.injEq, true_and] at g1'
      rw [← g1'.1] at g2'
      exact intLiteral_unique g2 g4 g2' g4'
    | keep _ _ _ hn => exact absurd h (hn _)
  | keep k v h hn ih =>
    intro v' h'
    cases h' with
    | set _ _ h' => exact absurd h' (hn _)
    | keep _ _ h' _ => exact ih v' h'

theorem version_after {ts : List Token} {k0 v : Nat} (h : SetsVersion ((words ts k0).map Token.v) v)
    (hno : ∀ j > k0, ∀ n, ¬ SetsVersion ((words ts j).map Token.v) n) (k : Nat) (hk : k0 < k) : VersionAt ts k v := by
  induction k with
  | zero => omega
  | succ k ih =>
    by_cases e : k = k0
    · rw [e]; exact .set _ _ h
    · exact .keep _ _ (ih (by omega)) (hno k (by omega))

theorem since_unique {d d' : DocOp} (h : d ∈ docOps) (h' : d' ∈ docOps) (hn : d.name = d'.name) (sig : Bool) : d.since sig = d'.since sig := by
  have : ∀ d ∈ docOps, ∀ d' ∈ docOps, d.name = d'.name → ∀ sig, d.since sig = d'.since sig := by decide +kernel
  exact this d h d' h' hn sig

theorem modeLine_congr {ts ts' : List Token} {k k' : Nat} (hw : (words ts' k').map Token.v = (words ts k).map Token.v)
    (hc : (comments ts' k').map Token.v = (comments ts k).map Token.v) : ModeLine ts' k' ↔ ModeLine ts k := by
  have hn : words ts' k' = [] ↔ words ts k = [] := by
    rw [← List.map_eq_nil_iff (f := Token.v), hw, List.map_eq_nil_iff]
  have hm : (∃ c ∈ comments ts' k', trimSpace c.v = b!"#pragma mode logicsig") ↔ ∃ c ∈ comments ts k, trimSpace c.v = b!"#pragma mode logicsig" := by
    have : ∀ l : List Token, (∃ c ∈ l, trimSpace c.v = b!"#pragma mode logicsig") ↔ ∃ s ∈ l.map Token.v, trimSpace s = b!"#pragma mode logicsig" := by
      intro l; simp
    rw [this, this, hc]
  unfold ModeLine
  rw [hn, hm]

end Teal.Lsp

namespace Teal.Props
open Teal Teal.Spec Teal.Lsp Teal.Lsp.Spec

/-- **C80** (partial: for texts without a lexical error, whose strings are on one line and whose carriage
returns are followed by line feeds; see `C80_false`.)  After removing a line that the program can do
without, the text is read to the program without that line, which takes the same paths. -/
theorem C80_partial (h : Host) (ms : List (Choice × Msg)) (u src : Bytes) (k : Nat) (es : List TextEdit)
    (ha : Executed h ms u src (.lineRemove u k) es) (he : (readTokens src).2 = []) (hone : OneLine (tokens src)) (hcr : CrLf src)
    (env : Env) (r : ProcessResult) (hr : process env src = some r) (hs : NoSurplus r) (hd : Dispensable r.listing k) :
    ∃ e src', es = [e] ∧ Applied src e src' ∧ ∃ r', process env src' = some r' ∧ r'.listing = r.listing.eraseIdx k ∧
      r'.version = r.version ∧
      ((∀ n i j, Teal.Spec.At r.listing k (.branch .b n) → DefinedAt r.listing n i → DefinedAt r.listing n j → i = j) →
        SamePaths r.listing r'.listing) := by
  obtain ⟨-, rfl⟩ := executed_remove ha
  obtain ⟨hk, hn⟩ := dispensable_sets hr hs hd
  have hlen := (listing_ops hr hs).1
  have hle : lineCount (tokens src) ≤ _ := lineCount_le src
  obtain ⟨p, m, b, T1, Tm, Tb, hc⟩ := cuts src k (by rw [hlen] at hk; omega) he hone
  obtain ⟨r', h1, h2, h3, -⟩ := program_cut hr hs hc hcr hk hn
  refine ⟨_, p ++ b, rfl, ⟨k, 0, k + 1, 0, _, _, rfl, hc.start, hc.stop, by simp, ?_⟩, r', h1, h2, h3, fun hu => ?_⟩
  · rw [hc.text]; simp [List.drop_append]
  · rw [h2]; exact dispensable_paths hd hu

example : Executed sampleHost (openSession b!"b x\r\nx:\r\nint 1") b!"u" b!"b x\r\nx:\r\nint 1" (.lineRemove b!"u" 0)
      [⟨⟨⟨0, 0⟩, ⟨1, 0⟩⟩, []⟩] ∧ (readTokens b!"b x\r\nx:\r\nint 1").2 = [] ∧ OneLine (tokens b!"b x\r\nx:\r\nint 1") ∧
    CrLf b!"b x\r\nx:\r\nint 1" ∧
    (process sampleEnv b!"b x\r\nx:\r\nint 1").map (fun r => (r.listing, r.diagnostics.all fun d => d.kind != .parse .tooManyValues)) =
      some ([.branch .b b!"x", .label b!"x", .int 1], true) ∧
    Dispensable [.branch .b b!"x", .label b!"x", .int 1] 0 := by
  refine ⟨open_executed _ _ b!"1" _ (by decide +kernel), by decide +kernel, by unfold OneLine; decide +kernel, ?_, by decide +kernel,
    .jump b!"x" 1 rfl (by decide) rfl (by omega)⟩
  intro i hi
  have hlt := (List.getElem?_eq_some_iff.1 hi).1
  have : ∀ i < 14, (b!"b x\r\nx:\r\nint 1" : Bytes)[i]? = some chCR → (b!"b x\r\nx:\r\nint 1" : Bytes)[i + 1]? = some chLF := by decide
  exact this i hlt hi

/-- **C80** fails when a string goes on over a line break: lines are counted without the line breaks in
strings, and the fix removes another line. -/
theorem C80_false : Answered sampleHost (openSession b!"byte \"\n\"\nx:\nerr") b!"u" b!"byte \"\n\"\nx:\nerr" (.codeAction ⟨⟨1, 0⟩, ⟨1, 0⟩⟩)
      (.codeActions [⟨b!"Remove label 'x'", b!"Remove label 'x'", .lineRemove b!"u" 1⟩]) ∧
    Executed sampleHost (openSession b!"byte \"\n\"\nx:\nerr") b!"u" b!"byte \"\n\"\nx:\nerr" (.lineRemove b!"u" 1)
      [⟨⟨⟨1, 0⟩, ⟨2, 0⟩⟩, []⟩] ∧
    Applied b!"byte \"\n\"\nx:\nerr" ⟨⟨⟨1, 0⟩, ⟨2, 0⟩⟩, []⟩ b!"byte \"\nx:\nerr" ∧
    (process sampleEnv b!"byte \"\n\"\nx:\nerr").map (·.listing) = some [.byte b!"\n", .label b!"x", .plain .err] ∧
    (process sampleEnv b!"byte \"\nx:\nerr").map (·.listing) = some [.empty] := by
  refine ⟨open_answered _ _ _ (by decide +kernel), open_executed _ _ b!"1" _ (by decide +kernel), ?_, by decide +kernel, by decide +kernel⟩
  exact ⟨1, 0, 2, 0, 7, 9, rfl, .there _ ⟨b!"byte \"\n", b!"\"\nx:\nerr", by decide, rfl, by decide, by decide, by decide⟩,
    .there _ ⟨b!"byte \"\n\"\n", b!"x:\nerr", by decide, rfl, by decide, by decide, by decide⟩, by decide, by decide⟩

/-- **C81** (partial: for texts without a lexical error, whose strings are on one line, and names without
quotes; see `C81_false`.)  After creating a label, the text defines it, and is read to the program with
the label behind its last line. -/
theorem C81_partial (h : Host) (ms : List (Choice × Msg)) (u src n : Bytes) (es : List TextEdit)
    (ha : Executed h ms u src (.labelCreate u n) es) (hn : PlainWord n) (he : (readTokens src).2 = []) (hone : OneLine (tokens src))
    (env : Env) (r : ProcessResult) (hr : process env src = some r) (hs : NoSurplus r) :
    ∃ e src', es = [e] ∧ Applied src e src' ∧ DefinesLabel src' n ∧ ∃ r' more, process env src' = some r' ∧
      r'.listing = r.listing ++ more ∧ (more = [.label n] ∨ more = [.empty, .label n]) ∧ r'.version = r.version := by
  rw [executed_create ha]
  obtain ⟨src', X, h1, h2, d, b, e, hd, hlc, hX⟩ := create_label n hn he hone
  refine ⟨_, src', rfl, h1, ?_⟩
  have hlen := (listing_ops hr hs).1
  have hwX : ∀ j, words X j = if j = lineCount (tokens src) + d then [⟨n ++ [chColon], lineCount (tokens src) + d, b, e, .value⟩] else [] := by
    intro j
    have : words X j = (X.filter fun t => decide (t.t = .value)).filter fun t => decide (t.l = j) := by
      unfold words
      rw [List.filter_filter]
    rw [this, hX]
    by_cases hj : j = lineCount (tokens src) + d
    · simp [hj]
    · simp [hj, Ne.symm hj]
  have hw : words (tokens src') (lineCount (tokens src) + d) = [⟨n ++ [chColon], lineCount (tokens src) + d, b, e, .value⟩] := by
    rw [h2, words_append, hwX, if_pos rfl]
    have : words (tokens src) (lineCount (tokens src) + d) = [] := Classical.byContradiction fun hne => by
      have := words_lt hne
      omega
    rw [this, List.nil_append]
  refine ⟨⟨hn.1, _, _, by rw [hw]; rfl, rfl⟩, ?_⟩
  have hlab : ∀ ver, opsOf env.addrOk ver [n ++ [chColon]] = [.label n] := by
    intro ver
    rw [opsOf, if_pos (by simp), if_neg (by simpa using hn.1)]
    simp
  have hno : ∀ j v, ¬ SetsVersion ((words X j).map Token.v) v := by
    rintro j v ⟨s, rest, g, -⟩
    rw [hwX] at g
    split at g <;> simp at g
  have hge : ∀ t ∈ X, t.t = .value → r.listing.length ≤ t.l := by
    intro t ht hv
    have : t ∈ X.filter fun t => decide (t.t = .value) := List.mem_filter.2 ⟨ht, by simp [hv]⟩
    rw [hX, List.mem_singleton] at this
    rw [this, hlen]; simp
  rcases Nat.le_one_iff_eq_zero_or_eq_one.1 hd with rfl | rfl
  · obtain ⟨r', q1, q2, q3, -⟩ := program_more hr hs X [.label n] h2 (by rw [hlen, hlc]; rfl) hge (by
      intro j ver o hj
      rw [hwX, hlen]
      cases j with
      | zero =>
        rw [if_pos rfl]
        cases hj
        exact hlab ver
      | succ j => simp at hj) hno
    exact ⟨r', _, q1, q2, .inl rfl, q3⟩
  · obtain ⟨r', q1, q2, q3, -⟩ := program_more hr hs X [.empty, .label n] h2 (by rw [hlen, hlc]; rfl) hge (by
      intro j ver o hj
      rw [hwX, hlen]
      match j, hj with
      | 0, hj =>
        rw [if_neg (by omega)]
        cases hj
        rfl
      | 1, hj =>
        rw [if_pos rfl]
        cases hj
        exact hlab ver
      | j + 2, hj => simp at hj) hno
    exact ⟨r', _, q1, q2, .inr rfl, q3⟩

example : Executed sampleHost (openSession b!"b y\nerr") b!"u" b!"b y\nerr" (.labelCreate b!"u" b!"y")
      [⟨⟨⟨2, 0⟩, ⟨2, 6⟩⟩, b!"\r\ny:\r\n"⟩] ∧ PlainWord b!"y" ∧ (readTokens b!"b y\nerr").2 = [] ∧ OneLine (tokens b!"b y\nerr") ∧
    (process sampleEnv b!"b y\nerr").map (fun r => (r.listing, r.diagnostics.all fun d => d.kind != .parse .tooManyValues)) =
      some ([.branch .b b!"y", .plain .err], true) :=
  ⟨open_executed _ _ b!"1" _ (by decide +kernel), by unfold PlainWord; decide, by decide +kernel, by unfold OneLine; decide +kernel, by decide +kernel⟩

/-- **C81** fails for names in quotes: a colon behind a quoted word is a word of its own. -/
theorem C81_false : Answered sampleHost (openSession b!"b \"x\"") b!"u" b!"b \"x\"" (.codeAction ⟨⟨0, 2⟩, ⟨0, 2⟩⟩)
      (.codeActions [⟨b!"Create label '\"x\"'", b!"Create label", .labelCreate b!"u" b!"\"x\""⟩,
        ⟨b!"Update version to 2", b!"Update version", .versionUpdate b!"u" 2⟩]) ∧
    Executed sampleHost (openSession b!"b \"x\"") b!"u" b!"b \"x\"" (.labelCreate b!"u" b!"\"x\"")
      [⟨⟨⟨1, 0⟩, ⟨1, 8⟩⟩, b!"\r\n\"x\":\r\n"⟩] ∧
    Applied b!"b \"x\"" ⟨⟨⟨1, 0⟩, ⟨1, 8⟩⟩, b!"\r\n\"x\":\r\n"⟩ b!"b \"x\"\r\n\"x\":\r\n" ∧
    ¬ DefinesLabel b!"b \"x\"\r\n\"x\":\r\n" b!"\"x\"" := by
  refine ⟨open_answered _ _ _ (by decide +kernel), open_executed _ _ b!"1" _ (by decide +kernel), ?_, ?_⟩
  · exact ⟨1, 0, 1, 8, 5, 5, rfl, .textEnd (by decide), .textEnd (by decide), by decide, by decide⟩
  · rintro ⟨-, k, t, h1, h2⟩
    have hm := (mem_words.1 (List.mem_of_mem_head? h1)).1
    have : ∀ t ∈ tokens b!"b \"x\"\r\n\"x\":\r\n", t.v ≠ b!"\"x\"" ++ [chColon] := by decide +kernel
    exact this t hm h2

/-- **C82** (partial: for texts whose strings are on one line; see `C82_false` for lines before the last
version pragma.)  After changing the version to `v`, the words of all lines but the one with the last
version pragma are kept, possibly a line further down, and `v` is in force on the lines behind that
pragma: an instruction there that needed this version, needs none any more. -/
theorem C82_partial (h : Host) (ms : List (Choice × Msg)) (u src : Bytes) (v : Nat) (es : List TextEdit)
    (ha : Executed h ms u src (.versionUpdate u v) es) (hv : 1 ≤ v) (hv' : v < 2 ^ 64) (hone : OneLine (tokens src)) :
    ∃ e src' d, es = [e] ∧ Applied src e src' ∧
      (∀ j, ¬ LastVersionLine (tokens src) j → (words (tokens src') (j + d)).map Token.v = (words (tokens src) j).map Token.v) ∧
      (∀ k, (∀ j ≥ k, ∀ t, ¬ VersionWord (tokens src) j t) →
        VersionAt (tokens src') (k + d) v ∧ (Needs (tokens src) k v → ∀ v', ¬ Needs (tokens src') (k + d) v')) := by
  obtain ⟨mp, r, hr, rfl⟩ := executed_version ha
  have hlit : IntLiteral (formatUint v) v := ((C11_int_literal _ _).1 (readInt_formatUint v hv')).1
  have hneeds : ∀ src' k d, VersionAt (tokens src') (k + d) v → (words (tokens src') (k + d)).map Token.v = (words (tokens src) k).map Token.v →
      (SigAt (tokens src') (k + d) ↔ SigAt (tokens src) k) → Needs (tokens src) k v → ∀ v', ¬ Needs (tokens src') (k + d) v' := by
    rintro src' k d hV hw hsig ⟨V, sig, w, d1, n1, n2, n3, n4, n5, n6, n7⟩ v' ⟨V', sig', w', d1', n1', n2', n3', n4', n5', n6', n7'⟩
    have hVV := versionAt_unique hV _ n1'
    have hww : w'.v = w.v := by
      have := congrArg List.head? hw
      rw [List.head?_map, List.head?_map, n3, n3'] at this
      exact Option.some.inj this
    have hss : sig' = sig := by
      rw [Bool.eq_iff_iff, n2', n2, hsig]
    subst hss
    rw [since_unique n4' n4 (by rw [n5', n5, hww]), n6] at n6'
    injection n6' with n6'
    omega
  cases hvt : r.versionToken with
  | some t =>
    obtain ⟨k0, h1, h2⟩ := (versionToken_iff hr t).1 hvt
    obtain ⟨a, b, rest, n, g1, g2, g3, g4, g5⟩ := id h1
    have htw : t ∈ words (tokens src) k0 := by rw [g1]; simp
    obtain ⟨t1, t2, t3⟩ := mem_words.1 htw
    obtain ⟨src', e1, e2, e3, e4⟩ := replace_token t1 t3 (literal_head g4) (bare_uint v).writes hone
    have hother : ∀ j, j ≠ k0 → (words (tokens src') j).map Token.v = (words (tokens src) j).map Token.v := by
      intro j hj
      rw [e3 j]
      refine List.map_congr_left fun s hs => if_neg ?_
      rintro rfl
      exact hj ((mem_words.1 hs).2.1.symm.trans t2)
    have hafter : ∀ k, (∀ j ≥ k, ∀ t, ¬ VersionWord (tokens src) j t) → VersionAt (tokens src') k v := by
      intro k hk
      refine version_after (k0 := k0) ?_ ?_ k (Nat.lt_of_not_le fun hle => hk k0 hle t h1)
      · rw [e3 k0, g1]
        have hne : ∀ x : Token, readInt x.v = none → x ≠ t := by
          rintro x hx rfl
          rw [(C11_int_literal _ _).2 ⟨g4, g5⟩] at hx
          cases hx
        simp only [List.map_cons, if_true]
        rw [if_neg (hne a (by rw [g2]; decide +kernel)), if_neg (hne b (by rw [g3]; decide +kernel)), g2, g3]
        exact ⟨_, _, rfl, hlit, hv, hv'⟩
      · intro j hj n hn
        rw [hother j (by omega)] at hn
        obtain ⟨t', ht'⟩ := sets_word hn
        exact h2 j hj t' ht'
    refine ⟨_, src', 0, rfl, applied_of_edited e1, fun j hj => hother j ?_, fun k hk => ⟨hafter k hk, ?_⟩⟩
    · rintro rfl
      exact hj ⟨⟨t, h1⟩, fun j hj t' => h2 j hj t'⟩
    · have hk0 : k0 < k := Nat.lt_of_not_le fun hle => hk k0 hle t h1
      refine hneeds src' k 0 (hafter k hk) (hother k (by omega)) ?_
      unfold SigAt
      have : ∀ j, ModeLine (tokens src') j ↔ ModeLine (tokens src) j := by
        intro j
        by_cases hj : j = k0
        · subst hj
          have hne : ∀ ts', (words ts' j).map Token.v ≠ [] → ¬ ModeLine ts' j := fun ts' hn hm => hn (by rw [hm.1]; rfl)
          constructor
          · intro hm
            refine absurd hm (hne _ ?_)
            rw [e3 j, g1]; simp
          · intro hm
            refine absurd hm (hne _ ?_)
            rw [g1]; simp
        · exact modeLine_congr (hother j hj) (e4 j)
      simp only [Nat.add_zero, this]
  | none =>
    have hno := (versionToken_none hr).1 hvt
    obtain ⟨e1, e2, e3, e4, e5⟩ := insert_version src v _ rfl
    generalize b!"#pragma version " ++ (formatUint v ++ [chCR, chLF]) = s at *
    have hafter : ∀ k, VersionAt (tokens (s ++ src)) (k + 1) v := by
      intro k
      refine version_after (k0 := 0) ?_ ?_ (k + 1) (by omega)
      · rw [e2]
        exact ⟨_, _, rfl, hlit, hv, hv'⟩
      · intro j hj n hn
        obtain ⟨j, rfl⟩ : ∃ i, j = i + 1 := ⟨j - 1, by omega⟩
        rw [e4 j] at hn
        obtain ⟨t', ht'⟩ := sets_word hn
        exact hno j t' ht'
    refine ⟨_, _, 1, rfl, e1, fun j _ => e4 j, fun k _ => ⟨hafter k, ?_⟩⟩
    refine hneeds _ k 1 (hafter k) (e4 k) ?_
    unfold SigAt
    constructor
    · rintro ⟨j, hj, hm⟩
      cases j with
      | zero =>
        have := hm.1
        rw [this] at e2
        cases e2
      | succ j => exact ⟨j, by omega, (modeLine_congr (e4 j) (e5 j)).1 hm⟩
    · rintro ⟨j, hj, hm⟩
      exact ⟨j + 1, by omega, (modeLine_congr (e4 j) (e5 j)).2 hm⟩

/-- A text with a version pragma, and one without. -/
example : (Executed sampleHost (openSession b!"#pragma version 2\nsha3_256") b!"u" b!"#pragma version 2\nsha3_256" (.versionUpdate b!"u" 7)
      [⟨Lsp.onLine 0 16 17, b!"7"⟩] ∧ OneLine (tokens b!"#pragma version 2\nsha3_256")) ∧
    Executed sampleHost (openSession b!"sha3_256") b!"u" b!"sha3_256" (.versionUpdate b!"u" 7)
      [⟨Lsp.onLine 0 0 0, b!"#pragma version 7\r\n"⟩] ∧ OneLine (tokens b!"sha3_256") ∧ Needs (tokens b!"sha3_256") 0 7 := by
  refine ⟨⟨open_executed _ _ b!"1" _ (by decide +kernel), by unfold OneLine; decide +kernel⟩, open_executed _ _ b!"1" _ (by decide +kernel),
    by unfold OneLine; decide +kernel, 1, false, ⟨b!"sha3_256", 0, 0, 8, .value⟩, ⟨b!"sha3_256", some 7, some 7⟩, .first, ?_, by decide +kernel,
    by decide +kernel, rfl, rfl, by decide⟩
  simp [SigAt]

/-- **C82** fails for lines before the last version pragma: that pragma is changed, and the version on
these lines is not. -/
theorem C82_false : Answered sampleHost (openSession b!"sha3_256\n#pragma version 2") b!"u" b!"sha3_256\n#pragma version 2" (.codeAction ⟨⟨0, 0⟩, ⟨0, 0⟩⟩)
      (.codeActions [⟨b!"Update version to 7", b!"Update version", .versionUpdate b!"u" 7⟩]) ∧
    Executed sampleHost (openSession b!"sha3_256\n#pragma version 2") b!"u" b!"sha3_256\n#pragma version 2" (.versionUpdate b!"u" 7)
      [⟨Lsp.onLine 1 16 17, b!"7"⟩] ∧
    Applied b!"sha3_256\n#pragma version 2" ⟨Lsp.onLine 1 16 17, b!"7"⟩ b!"sha3_256\n#pragma version 7" ∧
    Needs (tokens b!"sha3_256\n#pragma version 7") 0 7 := by
  refine ⟨open_answered _ _ _ (by decide +kernel), open_executed _ _ b!"1" _ (by decide +kernel),
    applied_of_edited (edited_one b!"sha3_256\n#pragma version " b!"2" [] b!"7" 1 16 17 (by decide) (by decide) (by decide) (by decide) (by decide) (by decide)),
    1, false, ⟨b!"sha3_256", 0, 0, 8, .value⟩, ⟨b!"sha3_256", some 7, some 7⟩, .first, ?_, by decide +kernel,
    by decide +kernel, rfl, rfl, by decide⟩
  simp [SigAt]

end Teal.Props
