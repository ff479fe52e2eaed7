import Verif.Lemmas.Restore2

/-!
# C26: exactly which programs read back
-/

namespace Teal.Props
open Teal Spec P

theorem each_one {α β : Type} {f : α → List β} {l : List α} (h : ∀ x ∈ l, f x ≠ []) (hl : (l.flatMap f).length = l.length) :
    ∀ x ∈ l, ∃ y, f x = [y] := by
  have hge : ∀ (l : List α), (∀ x ∈ l, f x ≠ []) → l.length ≤ (l.flatMap f).length := by
    intro l
    induction l with
    | nil => simp
    | cons a l ih =>
      intro h
      have h1 := ih fun x hx => h x (by simp [hx])
      have h2 : 0 < (f a).length := List.length_pos_iff.2 (h a (by simp))
      rw [List.flatMap_cons, List.length_append, List.length_cons]
      omega
  induction l with
  | nil => simp
  | cons a l ih =>
    have h1 := hge l fun x hx => h x (by simp [hx])
    have h2 : 0 < (f a).length := List.length_pos_iff.2 (h a (by simp))
    rw [List.flatMap_cons, List.length_append, List.length_cons] at hl
    intro x hx
    rcases List.mem_cons.1 hx with rfl | hx
    · exact List.length_eq_one_iff.1 (by omega)
    · exact ih (fun x hx => h x (by simp [hx])) (by omega) x hx

theorem opsOf_ne {addrOk : Bytes → Bool} {ver : Nat} (ws : List Bytes) : opsOf addrOk ver ws ≠ [] := by
  cases ws with
  | nil => simp [opsOf]
  | cons w ws =>
    rw [opsOf]
    split
    · split <;> simp
    split
    · split <;> simp
    split
    · generalize evalShape addrOk _ ver ws = ev
      match ev with
      | none => simp [readOps]
      | some (x, []) => simp [readOps]
      | some (x, _ :: _) => simp [readOps]
    · simp

/-- If `Process` returns as many instructions as there are lines, each line is read to one. -/
theorem lines_read {env : Env} {src : Bytes} {r : ProcessResult} (h : process env src = some r)
    (hl : r.listing.length = lineCount (tokens src)) (k : Nat) (o : Op) (ho : r.listing[k]? = some o) :
    ∃ ver, VersionAt (tokens src) k ver ∧ opsOf env.addrOk ver ((words (tokens src) k).map Token.v) = [o] := by
  obtain ⟨qs, hr, he⟩ := process_eq env src
  rw [he] at h
  obtain ⟨lds, l1, l2, -⟩ := assemble_eq h
  have hq : qs.length = lineCount (tokens src) := by rw [hr.length, linesOf_length]
  have hone : ∀ q ∈ qs, ∃ op, q.ctx.ops = [op] := by
    refine each_one (f := fun q : LineOut => q.ctx.ops) ?_ (by rw [← l2, hl, hq])
    intro q hmem
    obtain ⟨j, hj⟩ := List.mem_iff_getElem?.1 hmem
    have hlt : j < lineCount (tokens src) := by rw [← hq]; exact (List.getElem?_eq_some_iff.1 hj).1
    obtain ⟨q', h1, h2⟩ := line_ops env.addrOk src qs hr j hlt
    rw [hj] at h1
    injection h1 with h1
    subst h1
    rw [h2]
    exact opsOf_ne _
  have hk : k < lineCount (tokens src) := by rw [← hl]; exact (List.getElem?_eq_some_iff.1 ho).1
  obtain ⟨q, h1, h2⟩ := line_ops env.addrOk src qs hr k hk
  obtain ⟨op, h3⟩ := hone q (List.mem_of_getElem? h1)
  rw [l2, one_op hone k q h1, h3] at ho
  injection ho with ho
  subst ho
  exact ⟨_, (carry_version env.addrOk src qs hr k (Nat.le_of_lt hk) _).2 rfl, by rw [← h3, h2]⟩

theorem version_unique (env : Env) {src : Bytes} {k v v' : Nat} (hk : k ≤ lineCount (tokens src)) (h1 : VersionAt (tokens src) k v)
    (h2 : VersionAt (tokens src) k v') : v = v' := by
  obtain ⟨qs, hr, -⟩ := process_eq env src
  rw [(carry_version env.addrOk src qs hr k hk _).1 h1, (carry_version env.addrOk src qs hr k hk _).1 h2]

theorem version_exists (env : Env) {src : Bytes} {k : Nat} (hk : k ≤ lineCount (tokens src)) : ∃ v, VersionAt (tokens src) k v := by
  obtain ⟨qs, hr, -⟩ := process_eq env src
  exact ⟨_, (carry_version env.addrOk src qs hr k hk _).2 rfl⟩

theorem version_last {env : Env} {src : Bytes} {r : ProcessResult} (h : process env src = some r) :
    VersionAt (tokens src) (lineCount (tokens src)) r.version := by
  obtain ⟨qs, hr, he⟩ := process_eq env src
  rw [he] at h
  obtain ⟨lds, l1, l2, l3, -, -, -, -, -, -, l8, -⟩ := assemble_eq h
  rw [l8, last_carry, hr.length, linesOf_length]
  exact (carry_version env.addrOk _ qs hr _ (Nat.le_refl _) _).2 rfl

/-- The words of printed instructions. -/
theorem printed_rows (os : List Op) (Q : Nat → Op → List Bytes → Prop)
    (h : ∀ (k : Nat) (o : Op), os[k]? = some o → ∃ ws, Row o.str ws ∧ Q k o ws) :
    ∃ vs : List (List Bytes), Rows (os.map Op.str) vs ∧ vs.length = os.length ∧
      ∀ (k : Nat) (ws : List Bytes) (o : Op), vs[k]? = some ws → os[k]? = some o → Q k o ws := by
  induction os generalizing Q with
  | nil => exact ⟨[], .nil, rfl, by simp⟩
  | cons o os ih =>
    obtain ⟨vs, h1, h3, h4⟩ := ih (fun k => Q (k + 1)) fun k o' ho' => h (k + 1) o' (by simpa using ho')
    obtain ⟨ws, h5, h6⟩ := h 0 o rfl
    refine ⟨ws :: vs, .cons _ _ _ _ h5 h1, by simp [h3], ?_⟩
    intro k ws' o' hk1 hk2
    cases k with
    | zero =>
      simp only [List.getElem?_cons_zero, Option.some.injEq] at hk1 hk2
      subst hk1 hk2
      exact h6
    | succ k => exact h4 k ws' o' (by simpa using hk1) (by simpa using hk2)

/-- **C26** (exactly.)  For a program without surplus words, whose versions are below 256 and whose
labels and addresses have no quote between quotes: the printed listing is read to the same listing if and
only if every instruction is one that reads back in its version; the version is then the same, too. -/
theorem C26_exact (env : Env) (src : Bytes) (r : ProcessResult) (h : process env src = some r) (hs : NoSurplus r)
    (hver : ∀ k ver, VersionAt (tokens src) k ver → ver < 256)
    (hq : ∀ o ∈ r.listing, ∀ w ∈ keptWords o, NoInnerQuote w) :
    ((∃ r', process env (listingStr r.listing) = some r' ∧ r'.listing = r.listing) ↔
      ∀ (k ver : Nat) (o : Op), r.listing[k]? = some o → VersionAt (tokens src) k ver → Restorable ver o) ∧
    ∀ r', process env (listingStr r.listing) = some r' → r'.listing = r.listing → r'.version = r.version := by
  have hlen : r.listing.length = lineCount (tokens src) := by
    obtain ⟨qs, hr, he⟩ := process_eq env src
    have h0 := h
    rw [he] at h0
    have hone := noSurplus_ops hr (noSurplus_lines h0 hs)
    obtain ⟨lds, l1, l2, -⟩ := assemble_eq h0
    rw [l2, one_op_length hone, hr.length, linesOf_length]
  have hop := lines_read h hlen
  -- what each line is printed as
  obtain ⟨vs, hrows, hvl, hvs⟩ := printed_rows r.listing
    (fun _ o ws => (∀ m, o = .pragma m → ws = [b!"#pragma", b!"version", formatUint m]) ∧
      ∀ ver, opsOf env.addrOk ver ws = [o] ↔ Restorable ver o) fun k o ho => by
    obtain ⟨ver, h1, h2⟩ := hop k o ho
    obtain ⟨hk1, hk2⟩ := kept_of_ops h2
    refine restores env.addrOk o (valid_of_ops (words_ok src k) h2) ?_ hk2 ?_
    · intro w hw
      obtain ⟨t, ht, rfl⟩ := List.mem_map.1 (hk1 w hw)
      obtain ⟨h3, -, h4⟩ := mem_words.1 ht
      obtain ⟨err, hlx, -⟩ := readTokens_lexes src
      obtain ⟨raw, hraw⟩ := token_writes hlx t h3 h4
      exact writes_self hraw (hq o (List.mem_of_getElem? ho) _ hw)
    · rintro v rfl
      obtain ⟨n, hn, rfl⟩ := (setsVersion_ops h2).2 v rfl
      have h3 := hver (k + 1) n (.set k n hn)
      obtain ⟨_, _, _, _, h4, _⟩ := hn
      rw [Nat.mod_eq_of_lt h3]
      exact ⟨h4, h3⟩
  have htext : listingStr r.listing = (r.listing.map Op.str).flatMap fun s => s ++ [chLF] := by
    unfold listingStr
    rw [List.flatMap_map]
  obtain ⟨hc, hw⟩ := rows_words hrows
  rw [← htext] at hc hw
  -- versions are the same if all lines are read to what they were
  have hsame : (∀ (k : Nat) (o : Op), r.listing[k]? = some o → ∃ ver, opsOf env.addrOk ver ((vs[k]?).getD []) = [o]) →
      ∀ k, k ≤ r.listing.length → ∀ v, VersionAt (tokens (listingStr r.listing)) k v → VersionAt (tokens src) k v := by
    intro hall k
    induction k with
    | zero => intro _ v hv; cases hv; exact .first
    | succ k ih =>
      intro hk v hv
      have hgo : r.listing[k]? = some r.listing[k] := List.getElem?_eq_getElem hk
      have hgv : vs[k]? = some vs[k] := List.getElem?_eq_getElem (by omega)
      obtain ⟨hp1, -⟩ := hvs k _ _ hgv hgo
      obtain ⟨ver1, ho1⟩ := hall k _ hgo
      rw [hgv, Option.getD_some] at ho1
      obtain ⟨ver2, hv2, ho2⟩ := hop k _ hgo
      have hwk : (words (tokens (listingStr r.listing)) k).map Token.v = vs[k] := by
        rw [hw k, hgv]; rfl
      cases hv with
      | set _ _ hset =>
        rw [hwk] at hset
        have hpr := (setsVersion_ops ho1).1 v hset
        obtain ⟨n, hn, hmod⟩ := (setsVersion_ops ho2).2 _ hpr
        have h3 := hver (k + 1) n (.set k n hn)
        rw [hp1 _ hpr] at hset
        obtain ⟨s, rest, he1, he2, he3, he4⟩ := hset
        injection he1 with _ he1
        injection he1 with _ he1
        injection he1 with he1 _
        have hr1 := (C11_int_literal s v).2 ⟨he2, he4⟩
        rw [← he1, (C11_print_read (v % 256) (by omega)).2] at hr1
        injection hr1 with hr1
        have : v = n := by omega
        subst this
        exact .set k v hn
      | keep _ _ hv hn =>
        rw [hwk] at hn
        refine .keep k v (ih (by omega) v hv) ?_
        intro n hset
        have hpr := (setsVersion_ops ho2).1 n hset
        obtain ⟨m, hm, -⟩ := (setsVersion_ops ho1).2 _ hpr
        exact hn m hm
  -- what the printed lines are read to
  have hback : ∀ r', process env (listingStr r.listing) = some r' → r'.listing = r.listing →
      ∀ (k : Nat) (o : Op), r.listing[k]? = some o → ∃ ver, VersionAt (tokens (listingStr r.listing)) k ver ∧ opsOf env.addrOk ver ((vs[k]?).getD []) = [o] := by
    intro r' hr' hl' k o ho
    rw [← hl'] at ho
    obtain ⟨ver, h1, h2⟩ := lines_read hr' (by rw [hl', hc, hvl]) k o ho
    rw [hw k] at h2
    exact ⟨ver, h1, h2⟩
  refine ⟨⟨?_, ?_⟩, ?_⟩
  · rintro ⟨r', hr', hl'⟩ k ver o ho hv
    have hb := hback r' hr' hl'
    obtain ⟨ver', h1, h2⟩ := hb k o ho
    have hk := (List.getElem?_eq_some_iff.1 ho).1
    have h3 := hsame (fun k o ho => (hb k o ho).imp fun _ h => h.2) k (Nat.le_of_lt hk) ver' h1
    have hgv : vs[k]? = some vs[k] := List.getElem?_eq_getElem (by omega)
    rw [hgv, Option.getD_some] at h2
    rw [version_unique env (by omega) hv h3]
    exact ((hvs k _ o hgv ho).2 ver').1 h2
  · intro hres
    have hall : ∀ (k ver : Nat) (o : Op), r.listing[k]? = some o → VersionAt (tokens src) k ver → opsOf env.addrOk ver ((vs[k]?).getD []) = [o] := by
      intro k ver o ho hv
      have hk := (List.getElem?_eq_some_iff.1 ho).1
      have hgv : vs[k]? = some vs[k] := List.getElem?_eq_getElem (by omega)
      rw [hgv, Option.getD_some]
      exact ((hvs k _ o hgv ho).2 ver).2 (hres k ver o ho hv)
    obtain ⟨r', h1, h2, -⟩ := program_of_lines env (listingStr r.listing) r.listing (by rw [← hvl]; exact hc) (by
      intro k ver o ho hv
      have hk := (List.getElem?_eq_some_iff.1 ho).1
      rw [hw k]
      refine hall k ver o ho (hsame ?_ k (Nat.le_of_lt hk) ver hv)
      intro j p hp
      obtain ⟨v, hv⟩ := version_exists env (src := src) (k := j) (by
        rw [← hlen]; exact Nat.le_of_lt (List.getElem?_eq_some_iff.1 hp).1)
      exact ⟨v, hall j v p hp hv⟩)
    exact ⟨r', h1, h2⟩
  · intro r' hr' hl'
    have hb := hback r' hr' hl'
    have h1 := version_last hr'
    rw [hc, hvl] at h1
    have h2 := hsame (fun k o ho => (hb k o ho).imp fun _ h => h.2) _ (Nat.le_refl _) _ h1
    have h3 := version_last h
    rw [← hlen] at h3
    exact version_unique env (by omega) h2 h3

/-- A program that reads back although it has labels in quotes, an empty list and `gtxnas` with equal
operands, and two that do not. -/
example :
    ((process sampleEnv b!"\"x\": \npushbytess\ngtxnas 1 1\nb \"a b\"\nswitch \"c\" d").bind fun r =>
        (process sampleEnv (listingStr r.listing)).map fun r' => decide (r'.listing = r.listing)) = some true ∧
    ((process sampleEnv b!"pushbytess 0x01 0x").bind fun r =>
        (process sampleEnv (listingStr r.listing)).map fun r' => decide (r'.listing = r.listing)) = some false ∧
    ((process sampleEnv b!"gtxnas 1 2").bind fun r =>
        (process sampleEnv (listingStr r.listing)).map fun r' => decide (r'.listing = r.listing)) = some false := by
  decide +kernel

/-- The hypotheses of `C26_exact` hold of a program with a label in quotes, which does not read back:
the second operand of `gtxnas` has changed places with the first. -/
example : ∃ r, process sampleEnv b!"gtxnas 1 2\nb \"a b\"" = some r ∧
    ¬ ∃ r', process sampleEnv (listingStr r.listing) = some r' ∧ r'.listing = r.listing := by
  have h1 : (process sampleEnv b!"gtxnas 1 2\nb \"a b\"").isSome = true := by decide +kernel
  have h2 : (((process sampleEnv b!"gtxnas 1 2\nb \"a b\"").map (·.diagnostics)).getD []).all
      (fun d => match d.kind with | .parse .tooManyValues => false | _ => true) = true := by decide +kernel
  have h3 : ((process sampleEnv b!"gtxnas 1 2\nb \"a b\"").map (·.listing)).getD [] =
      [.groupField .gtxnas 1 2, .branch .b b!"\"a b\""] := by decide +kernel
  have hw : ∀ k, k < 2 → (words (tokens b!"gtxnas 1 2\nb \"a b\"") k).map Token.v =
      [[b!"gtxnas", b!"1", b!"2"], [b!"b", b!"\"a b\""]][k]?.getD [] := by decide +kernel
  have hc : lineCount (tokens b!"gtxnas 1 2\nb \"a b\"") = 2 := by decide +kernel
  obtain ⟨r, hr⟩ := Option.isSome_iff_exists.1 h1
  rw [hr] at h2 h3
  replace h2 := List.all_eq_true.1 (show r.diagnostics.all _ = true from h2)
  replace h3 : r.listing = _ := h3
  refine ⟨r, hr, fun hback => ?_⟩
  have hex := C26_exact sampleEnv b!"gtxnas 1 2\nb \"a b\"" r hr (by
      intro d hd hk
      have := h2 d hd
      rw [hk] at this
      cases this) (by
    intro k ver h
    clear h1 h2 h3 hr hback
    induction h with
    | first => decide
    | set k n h =>
      exfalso
      obtain ⟨s, rest, he, -⟩ := h
      by_cases hk : k < 2
      · rw [hw k hk] at he
        match k, hk with
        | 0, _ => simp at he
        | 1, _ => simp at he
      · have := words_lt (src := b!"gtxnas 1 2\nb \"a b\"") (k := k) (by
          intro h0
          rw [show words (tokens _) k = [] from h0] at he
          simp at he)
        rw [hc] at this
        exact hk this
    | keep k v _ _ ih => exact ih) (by
    rw [h3]
    intro o ho w hw body hb
    simp only [List.mem_cons, List.not_mem_nil, or_false] at ho
    rcases ho with rfl | rfl
    · simp [keptWords] at hw
    · simp only [keptWords, List.mem_cons, List.not_mem_nil, or_false] at hw
      subst hw
      have h4 : b!"a b" = body := by
        have := congrArg (fun l : Bytes => l.tail.dropLast) hb
        simpa using this
      rw [← h4]
      decide)
  have := hex.1.1 hback 0 1 (.groupField .gtxnas 1 2) (by rw [h3]; rfl) .first
  have : (1 : Nat) = 2 := this
  omega

end Teal.Props
