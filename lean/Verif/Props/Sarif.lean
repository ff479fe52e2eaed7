import Verif.Spec.Sarif
import Verif.Props.Process

/-!
# C53: the scanner's report
-/

namespace Teal.Props

open Teal Teal.Spec Teal.Sarif

theorem extLoop_teal : ∀ (r acc : Bytes), extLoop acc r = b!".teal" →
    ∃ x pre, r = x ++ 46 :: pre ∧ x.reverse ++ acc = b!"teal" := by
  intro r
  induction r with
  | nil => intro acc h; cases h
  | cons c cs ih =>
    intro acc h
    rw [extLoop] at h
    split at h
    · cases h
    · split at h
      · rename_i hc
        subst hc
        exact ⟨[], cs, rfl, (List.cons.inj h).2⟩
      · obtain ⟨x, pre, h1, h2⟩ := ih _ h
        refine ⟨c :: x, pre, by rw [h1]; rfl, ?_⟩
        simpa using h2

/-- The extension is `.teal` exactly if the path ends with that. -/
theorem ext_teal (p : Bytes) : ext p = b!".teal" ↔ b!".teal" <:+ p := by
  unfold ext
  constructor
  · intro h
    obtain ⟨x, pre, h1, h2⟩ := extLoop_teal _ _ h
    have h3 : p = pre.reverse ++ 46 :: x.reverse := by
      have := congrArg List.reverse h1
      simpa using this
    rw [List.append_nil] at h2
    exact ⟨pre.reverse, by rw [h3, h2]⟩
  · rintro ⟨pre, rfl⟩
    simp [extLoop]

theorem toScan_paths {root : Root} {ps : List Bytes} : paths root = some ps ↔ ToScan root ps := by
  constructor
  · intro h
    cases root with
    | missing => cases h
    | file p => cases h; exact .file p
    | dir es =>
      simp only [paths, Option.some.injEq] at h
      subst h
      induction es with
      | nil => exact .empty
      | cons e es ih =>
        by_cases hc : (!e.dir && (ext e.path == b!".teal")) = true
        · rw [List.filter_cons_of_pos (p := fun e : DirEntry => !e.dir && (ext e.path == b!".teal")) hc]
          simp only [Bool.and_eq_true, Bool.not_eq_true', beq_iff_eq] at hc
          exact .take hc.1 ((ext_teal _).1 hc.2) ih
        · rw [List.filter_cons_of_neg (p := fun e : DirEntry => !e.dir && (ext e.path == b!".teal")) hc]
          refine .skip ?_ ih
          simp only [Bool.and_eq_true, Bool.not_eq_true', beq_iff_eq, not_and] at hc
          cases hd : e.dir with
          | true => exact .inl rfl
          | false => exact .inr fun hs => hc hd ((ext_teal _).2 hs)
  · intro h
    induction h with
    | file p => rfl
    | empty => rfl
    | take h1 h2 _ ih =>
      simp only [paths, Option.some.injEq] at ih ⊢
      rw [List.filter_cons_of_pos (by rw [h1, (ext_teal _).2 h2]; rfl), List.map_cons, ih]
    | @skip e es ps h1 _ ih =>
      simp only [paths, Option.some.injEq] at ih ⊢
      rw [List.filter_cons_of_neg, ih]
      simp only [Bool.and_eq_true, Bool.not_eq_true', beq_iff_eq, not_and]
      intro hd hx
      rcases h1 with h1 | h1
      · rw [hd] at h1; cases h1
      · exact h1 ((ext_teal _).1 hx)

theorem reports_result (up : Bytes) (d : Diag) (i : Nat) : Reports rules up d (result up d i) := by
  obtain ⟨k, l, b, e⟩ := d
  have h : ∀ k' : DiagKind, (ruleId k' ∈ rules) ∧ (∀ x ∈ ruleMeans, ruleId k' = x.1 ↔ x.2 k') ∧
      (level (severity k') = b!"warning" ↔ IsWarning k') ∧
      (level (severity k') = b!"error" ↔ ¬ IsWarning k') := by
    intro k'
    cases k' with
    | lint r => cases r <;> refine ⟨by simp [ruleId, rules, ruleTable], ?_, by simp [level, severity, IsWarning], by simp [level, severity, IsWarning]⟩ <;> simp [ruleMeans, ruleId]
    | _ => refine ⟨by simp [ruleId, rules, ruleTable], ?_, by simp [level, severity, IsWarning], by simp [level, severity, IsWarning]⟩; simp [ruleMeans, ruleId]
  exact ⟨rfl, rfl, rfl, rfl, (h k).1, (h k).2.1, (h k).2.2.1, (h k).2.2.2⟩

/-- What the loop adds to the report. -/
theorem scanLoop_report {env : Env} {fs : Files} : ∀ {ps : List Bytes} {run r : Sarif.Run}, scanLoop env fs run ps = .report r →
    r.rules = run.rules ∧ ∃ (us : List Bytes) (parts : List (List Result)), r.artifacts = run.artifacts ++ us ∧
      r.results = run.results ++ parts.flatten ∧ us.length = ps.length ∧ parts.length = ps.length ∧
      ∀ (k : Nat) (p : Bytes), ps[k]? = some p → ∃ src res ab part, fs.read p = some src ∧ process env src = some res ∧
        fs.abs p = some ab ∧ us[k]? = some (fileUri ab) ∧ parts[k]? = some part ∧
        part = res.diagnostics.zipIdx.map fun x => result (fileUri ab) x.1 x.2 := by
  intro ps
  induction ps with
  | nil => intro run r h; cases h; exact ⟨rfl, [], [], by simp, by simp, rfl, rfl, by simp⟩
  | cons p ps ih =>
    intro run r h
    rw [scanLoop] at h
    split at h
    · cases h
    · rename_i src hs
      split at h
      · cases h
      · rename_i res hp
        split at h
        · cases h
        · rename_i ab ha
          obtain ⟨h1, us, parts, h2, h3, h4, h5, h6⟩ := ih h
          refine ⟨h1, fileUri ab :: us, _ :: parts, by rw [h2]; simp, by rw [h3, List.flatten_cons, ← List.append_assoc], by simp [h4], by simp [h5], ?_⟩
          intro k q hk
          cases k with
          | zero => cases hk; exact ⟨src, res, ab, _, hs, hp, ha, rfl, rfl, rfl⟩
          | succ k => exact h6 k q hk

/-- C53: a report has an artifact for each file to scan, in order, and for each file in order a
result for each of its diagnostics, in order, with the file's uri and one-based line and column.
Missing: the index of a result's location (`C53_false`). -/
theorem C53_partial {env : Env} {fs : Files} {r : Sarif.Run} (h : scan env fs = .report r) :
    ∃ (ps : List Bytes) (parts : List (List Result)), ToScan fs.root ps ∧ r.artifacts.length = ps.length ∧
      parts.length = ps.length ∧ r.results = parts.flatten ∧
      ∀ (k : Nat) (p : Bytes), ps[k]? = some p → ∃ src res ab part, fs.read p = some src ∧ process env src = some res ∧
        fs.abs p = some ab ∧ r.artifacts[k]? = some (fileUri ab) ∧ parts[k]? = some part ∧
        part.length = res.diagnostics.length ∧
        ∀ (i : Nat) (d : Diag), res.diagnostics[i]? = some d → ∃ x, part[i]? = some x ∧ Reports r.rules (fileUri ab) d x := by
  unfold scan at h
  split at h
  · cases h
  · rename_i ps hps
    obtain ⟨h1, us, parts, h2, h3, h4, h5, h6⟩ := scanLoop_report h
    refine ⟨ps, parts, toScan_paths.1 hps, by rw [h2]; simpa using h4, h5, by simpa using h3, ?_⟩
    intro k p hk
    obtain ⟨src, res, ab, part, g1, g2, g3, g4, g5, g6⟩ := h6 k p hk
    refine ⟨src, res, ab, part, g1, g2, g3, by rw [h2]; simpa using g4, g5, by rw [g6]; simp, ?_⟩
    intro i d hd
    refine ⟨result (fileUri ab) d i, ?_, ?_⟩
    · rw [g6, List.getElem?_map, List.getElem?_zipIdx, hd]
      simp
    · rw [h1]; exact reports_result _ _ _

theorem upperHex_inj : ∀ n m : UInt8, n < 16 → m < 16 → upperHex n = upperHex m → n = m := by
  intro n m hn hm h
  unfold upperHex at h
  have hn' := UInt8.lt_iff_toNat_lt.1 hn
  have hm' := UInt8.lt_iff_toNat_lt.1 hm
  apply UInt8.toNat_inj.1
  split at h <;> split at h <;> (rename_i h1 h2; have h1 := h1; have h2 := h2; simp only [UInt8.lt_iff_toNat_lt] at h1 h2; have := congrArg UInt8.toNat h; simp [UInt8.toNat_add] at this hn' hm' h1 h2; omega)

/-- Different paths have different uris. -/
theorem escape_inj : ∀ {a b : Bytes}, escape a = escape b → a = b := by
  have h37 : ∀ c, shouldEscape c = false → c ≠ 37 := by
    intro c h hc
    subst hc
    revert h
    decide
  intro a
  induction a with
  | nil =>
    intro b h
    cases b with
    | nil => rfl
    | cons c cs => rw [escape, escape] at h; split at h <;> cases h
  | cons x xs ih =>
    intro b h
    cases b with
    | nil => rw [escape, escape] at h; split at h <;> cases h
    | cons c cs =>
      rw [escape, escape] at h
      split at h <;> split at h
      · obtain ⟨-, h⟩ := List.cons.inj h
        obtain ⟨h1, h⟩ := List.cons.inj h
        obtain ⟨h2, h⟩ := List.cons.inj h
        rw [ih h]
        congr 1
        have d1 := upperHex_inj _ _ (by rw [UInt8.lt_iff_toNat_lt, UInt8.toNat_div]; have := x.toNat_lt; simp; omega)
          (by rw [UInt8.lt_iff_toNat_lt, UInt8.toNat_div]; have := c.toNat_lt; simp; omega) h1
        have d2 := upperHex_inj _ _ (by rw [UInt8.lt_iff_toNat_lt, UInt8.toNat_mod]; simp; omega)
          (by rw [UInt8.lt_iff_toNat_lt, UInt8.toNat_mod]; simp; omega) h2
        have d1 := congrArg UInt8.toNat d1
        have d2 := congrArg UInt8.toNat d2
        rw [UInt8.toNat_div, UInt8.toNat_div] at d1
        rw [UInt8.toNat_mod, UInt8.toNat_mod] at d2
        apply UInt8.toNat_inj.1
        simp at d1 d2
        omega
      · rename_i hc
        exact absurd (List.cons.inj h).1.symm (h37 c (by simpa using hc))
      · rename_i hx _
        exact absurd (List.cons.inj h).1 (h37 x (by simpa using hx))
      · obtain ⟨h0, h9⟩ := List.cons.inj h; subst h0
        rw [ih h9]

/-- C53: the uri of a result identifies its artifact, if the files have different absolute paths. -/
theorem C53_uri {env : Env} {fs : Files} {r : Sarif.Run} (h : scan env fs = .report r)
    (hd : ∀ p q, fs.abs p = fs.abs q → p = q) (hs : ∀ ps, ToScan fs.root ps → ps.Nodup) : r.artifacts.Nodup := by
  obtain ⟨ps, parts, h1, h2, -, -, h3⟩ := C53_partial h
  rw [List.Nodup, List.pairwise_iff_getElem]
  intro i j hi hj hij he
  obtain ⟨_, _, a, _, -, -, a1, a2, -⟩ := h3 i _ (List.getElem?_eq_getElem (by omega))
  obtain ⟨_, _, b, _, -, -, b1, b2, -⟩ := h3 j _ (List.getElem?_eq_getElem (by omega))
  rw [List.getElem?_eq_getElem hi, Option.some.injEq] at a2
  rw [List.getElem?_eq_getElem hj, Option.some.injEq] at b2
  rw [a2, b2] at he
  have := escape_inj (List.append_cancel_left he)
  subst this
  have hp := hd _ _ (a1.trans b1.symm)
  have := List.pairwise_iff_getElem.1 (hs ps h1) i j (by omega) (by omega) hij
  exact this hp

/-- C53: there is a report unless the path or a file to scan cannot be read, or processing a file
crashes. -/
theorem C53_when {env : Env} {fs : Files} {ps : List Bytes} (hps : ToScan fs.root ps)
    (h : ∀ p ∈ ps, ∃ src, fs.read p = some src ∧ process env src ≠ none ∧ fs.abs p ≠ none) :
    ∃ r, scan env fs = .report r := by
  unfold scan
  rw [toScan_paths.2 hps]
  dsimp only
  generalize ({ rules := rules, artifacts := [], results := [] } : Sarif.Run) = run
  clear hps
  induction ps generalizing run with
  | nil => exact ⟨_, rfl⟩
  | cons p ps ih =>
    obtain ⟨src, h1, h2, h3⟩ := h p (by simp)
    obtain ⟨res, h2⟩ := Option.ne_none_iff_exists'.1 h2
    obtain ⟨ab, h3⟩ := Option.ne_none_iff_exists'.1 h3
    rw [scanLoop, h1]
    dsimp only
    rw [h2]
    dsimp only
    rw [h3]
    exact ih (fun q hq => h q (by simp [hq])) _

/-- A directory with two programs and another file. -/
def sampleFiles : Files where
  root := .dir [⟨b!"d", true⟩, ⟨b!"d/a.teal", false⟩, ⟨b!"d/b.txt", false⟩, ⟨b!"d/e.teal", true⟩, ⟨b!"d/e.teal/c d.teal", false⟩]
  read := fun p => if p = b!"d/a.teal" then some b!"int 1\nfoo" else if p = b!"d/e.teal/c d.teal" then some b!"foo\nl:\nbar" else none
  abs := fun p => some (b!"/r/" ++ p)

/-- C53: the report for it. -/
example : (match scan sampleEnv sampleFiles with
    | .report r => decide (r.artifacts = [b!"file:///r/d/a.teal", b!"file:///r/d/e.teal/c%20d.teal"] ∧
        r.results.map (fun x => (x.rule, x.level, x.line, x.column)) = [(b!"PARSE", b!"error", 2, 1), (b!"PARSE", b!"error", 1, 1),
          (b!"PARSE", b!"error", 3, 1), (b!"LINT0002", b!"warning", 2, 1)])
    | _ => false) = true := by decide +kernel

example : ∀ p q, sampleFiles.abs p = sampleFiles.abs q → p = q := by
  intro p q h
  simpa [sampleFiles] using h

/-- C53 fails: the index in a result's location is not that of its artifact; here it is the index of no
artifact. -/
theorem C53_false : ∃ (fs : Files) (r : Sarif.Run), scan sampleEnv fs = .report r ∧ ∃ x ∈ r.results, r.artifacts[x.index]? ≠ some x.uri := by
  have h : (match scan sampleEnv { root := .file b!"a.teal", read := fun _ => some b!"foo\nbar", abs := some } with
    | .report r => r.results.any fun x => r.artifacts[x.index]? != some x.uri
    | _ => false) = true := by decide +kernel
  split at h
  · rename_i r hr
    obtain ⟨x, h1, h2⟩ := List.any_eq_true.1 h
    exact ⟨_, r, hr, x, h1, by simpa using h2⟩
  · cases h

end Teal.Props
