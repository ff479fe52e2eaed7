import Verif.Props.Restore
import Verif.Lemmas.RestoreQuote

/-!
# C26: exactly which programs read back, with any labels
-/

namespace Teal.Props
open Teal Spec P

/-- The words of an instruction that keeps some of them are its name and these. -/
theorem kept_words {addrOk : Bytes → Bool} {ver : Nat} {ws : List Bytes} {o : Op} {more : List Op} (h : opsOf addrOk ver ws = o :: more)
    (hk : keptWords o ≠ []) : ∃ x rest, ws = x :: (keptWords o ++ rest) := by
  have key : ∀ {sh : Shape} {ws left : List Bytes}, evalShape addrOk sh ver ws = some (o, left) → ∃ rest, ws = keptWords o ++ rest := by
    intro sh ws left h
    cases sh <;> simp only [evalShape] at h
    case addr =>
      cases ws with
      | nil => simp [Reader.bind, Reader.word] at h
      | cons w ws =>
        simp only [Reader.bind, Reader.word, Reader.ret] at h
        by_cases hw : addrOk w = true
        · simp [hw] at h
          obtain ⟨rfl, -⟩ := h
          exact ⟨ws, rfl⟩
        · simp [hw] at h
    case branch k =>
      cases ws with
      | nil => simp [Reader.bind, Reader.word] at h
      | cons w ws =>
        simp [Reader.bind, Reader.word, Reader.ret] at h
        obtain ⟨rfl, -⟩ := h
        exact ⟨ws, rfl⟩
    case switch =>
      rw [Reader.bind, (labels_all ver ws ws).2 rfl] at h
      simp only [Reader.ret, Option.some.injEq, Prod.mk.injEq] at h
      obtain ⟨rfl, -⟩ := h
      exact ⟨[], by simp [keptWords]⟩
    case match_ =>
      rw [Reader.bind, (labels_all ver ws ws).2 rfl] at h
      simp only [Reader.ret, Option.some.injEq, Prod.mk.injEq] at h
      obtain ⟨rfl, -⟩ := h
      exact ⟨[], by simp [keptWords]⟩
    all_goals exfalso; apply hk
    all_goals dsimp only [Reader.bind, Reader.ret] at h; repeat' split at h
    all_goals first
      | (cases h; done)
      | (cases h; rfl)
      | (cases h; split <;> rfl)
      | (dsimp only [Reader.bind, Reader.ret] at h; split at h <;> (cases h; try rfl))
  cases ws with
  | nil => injection h with h; subst h; exact absurd rfl hk
  | cons w ws =>
    rw [opsOf] at h
    split at h
    · split at h <;> (injection h with h; subst h; exact absurd rfl hk)
    split at h
    · split at h <;> (injection h with h; subst h; exact absurd rfl hk)
    split at h
    · rename_i e he
      generalize hev : evalShape addrOk e.shape ver ws = ev at h
      match ev, h with
      | none, h => injection h with h; subst h; exact absurd rfl hk
      | some (x, []), h =>
        injection h with h; subst h
        obtain ⟨rest, rfl⟩ := key hev
        exact ⟨w, rest, rfl⟩
      | some (x, _ :: _), h =>
        injection h with h; subst h
        obtain ⟨rest, rfl⟩ := key hev
        exact ⟨w, rest, rfl⟩
    · injection h with h; subst h; exact absurd rfl hk

/-- How an instruction that keeps words is printed. -/
theorem kept_str {o : Op} (hk : keptWords o ≠ []) : ∃ name, Bare name ∧ o.str = lineText (name :: keptWords o) := by
  cases o <;> simp only [keptWords, ne_eq, not_true_eq_false, reduceCtorEq, not_false_eq_true] at hk
  case addr a => exact ⟨b!"addr", by decide, by simp [Op.str, lineText, keptWords, chSpace]⟩
  case branch k l => exact ⟨k.str, (branch_str k).2, rfl⟩
  case switch ls =>
    cases ls with
    | nil => exact absurd rfl hk
    | cons x xs => exact ⟨b!"switch", by decide, by simp [Op.str, keptWords, lineText, ← lineText_join, chSpace]⟩
  case match_ ls =>
    cases ls with
    | nil => exact absurd rfl hk
    | cons x xs => exact ⟨b!"match", by decide, by simp [Op.str, keptWords, lineText, ← lineText_join, chSpace]⟩

theorem opsOf_form {addrOk : Bytes → Bool} {ver : Nat} (ws : List Bytes) : ∃ x, opsOf addrOk ver ws = [x] ∨ opsOf addrOk ver ws = [x, .empty] := by
  cases ws with
  | nil => exact ⟨_, .inl rfl⟩
  | cons w ws =>
    rw [opsOf]
    split
    · split <;> exact ⟨_, .inl rfl⟩
    split
    · split <;> exact ⟨_, .inl rfl⟩
    split
    · generalize evalShape addrOk _ ver ws = ev
      match ev with
      | none => exact ⟨_, .inl rfl⟩
      | some (x, []) => exact ⟨_, .inl rfl⟩
      | some (x, _ :: _) => exact ⟨_, .inr rfl⟩
    · exact ⟨_, .inl rfl⟩

theorem least {P : Nat → Prop} : ∀ k, P k → ∃ j, P j ∧ ∀ i < j, ¬ P i := by
  intro k
  induction k using Nat.strongRecOn with
  | ind k ih =>
    intro hk
    by_cases h : ∃ i < k, P i
    · obtain ⟨i, h1, h2⟩ := h
      exact ih i h1 h2
    · exact ⟨k, hk, fun i hi hp => h ⟨i, hi, hp⟩⟩

theorem first_not {α : Type} {P : α → Prop} {l : List α} (h : ∃ w ∈ l, ¬ P w) : ∃ a w b, l = a ++ w :: b ∧ (∀ x ∈ a, P x) ∧ ¬ P w := by
  induction l with
  | nil => obtain ⟨_, h, -⟩ := h; cases h
  | cons y l ih =>
    by_cases hy : P y
    · obtain ⟨w, hw, hn⟩ := h
      rcases List.mem_cons.1 hw with rfl | hw
      · exact absurd hy hn
      · obtain ⟨a, w, b, rfl, h1, h2⟩ := ih ⟨w, hw, hn⟩
        exact ⟨y :: a, w, b, rfl, by simpa using ⟨hy, h1⟩, h2⟩
    · exact ⟨[], y, l, rfl, by simp, hy⟩

theorem lineText_split (a b : List Bytes) (w : Bytes) :
    ∃ t, lineText (a ++ w :: b) = (a.flatMap fun x => x ++ [chSpace]) ++ (w ++ t) := by
  induction a with
  | nil =>
    cases b with
    | nil => exact ⟨[], by simp [lineText]⟩
    | cons y b => exact ⟨_, rfl⟩
  | cons x a ih =>
    obtain ⟨t, ht⟩ := ih
    refine ⟨t, ?_⟩
    have : ∀ l : List Bytes, l ≠ [] → lineText (x :: l) = x ++ chSpace :: lineText l := by
      intro l hl
      cases l with
      | nil => exact absurd rfl hl
      | cons y l => rfl
    rw [List.cons_append, this _ (by simp), ht]
    simp

theorem row_nil {s : Bytes} {ws : List Bytes} (h : Row s ws) (hs : s = []) : ws = [] := by
  cases h with
  | nil => rfl
  | blank => cases hs
  | word raw v t ws hw _ _ =>
    have h0 : raw = [] := (List.append_eq_nil_iff.1 hs).1
    cases hw with
    | bare _ hne => exact absurd h0 hne
    | quoted => cases h0
  | remark => cases hs

/-- A program with a label or address with a quote between quotes does not read back. -/
theorem inner_lost {env : Env} {src : Bytes} {r : ProcessResult} (h : process env src = some r) (hs : NoSurplus r)
    (hver : ∀ k ver, VersionAt (tokens src) k ver → ver < 256) {r' : ProcessResult} (hr' : process env (listingStr r.listing) = some r')
    (hl' : r'.listing = r.listing) : ∀ o ∈ r.listing, ∀ w ∈ keptWords o, NoInnerQuote w := by
  have hlen : r.listing.length = lineCount (tokens src) := by
    obtain ⟨qs, hr, he⟩ := process_eq env src
    have h0 := h
    rw [he] at h0
    have hone := noSurplus_ops hr (noSurplus_lines h0 hs)
    obtain ⟨lds, l1, l2, -⟩ := assemble_eq h0
    rw [l2, one_op_length hone, hr.length, linesOf_length]
  have hop := lines_read h hlen
  have hraw : ∀ (k : Nat) (o : Op), r.listing[k]? = some o → ∀ w ∈ keptWords o, ∃ raw, Writes raw w := by
    intro k o ho w hw
    obtain ⟨ver, h1, h2⟩ := hop k o ho
    obtain ⟨t, ht, rfl⟩ := List.mem_map.1 ((kept_of_ops h2).1 w hw)
    obtain ⟨h3, -, h4⟩ := mem_words.1 ht
    obtain ⟨err, hlx, -⟩ := readTokens_lexes src
    exact token_writes hlx t h3 h4
  refine Classical.byContradiction fun hbad => ?_
  have hex : ∃ (k : Nat) (o : Op), r.listing[k]? = some o ∧ ∃ w ∈ keptWords o, ¬ NoInnerQuote w := by
    refine Classical.byContradiction fun hno => hbad fun o ho w hw => Classical.byContradiction fun hn => ?_
    obtain ⟨k, hk⟩ := List.mem_iff_getElem?.1 ho
    exact hno ⟨k, o, hk, w, hw, hn⟩
  obtain ⟨k0, hk0⟩ := hex
  obtain ⟨k, ⟨o, ho, hw⟩, hmin⟩ := least (P := fun k => ∃ o, r.listing[k]? = some o ∧ ∃ w ∈ keptWords o, ¬ NoInnerQuote w) k0 hk0
  have hkept : keptWords o ≠ [] := by obtain ⟨w, hw, -⟩ := hw; exact List.ne_nil_of_mem hw
  obtain ⟨ws1, w, ws2, hsplit, hgood, hin⟩ := first_not hw
  -- the word
  have hu : ∃ u, w = chQuote :: (u ++ [chQuote]) ∧ chQuote ∈ u ∧ lastFrom chQuote u ≠ chBackslash := by
    have hx : ∃ u, w = chQuote :: (u ++ [chQuote]) ∧ chQuote ∈ u := by
      refine Classical.byContradiction fun hno => hin fun body hb hm => hno ⟨body, hb, hm⟩
    obtain ⟨u, hwu, hq⟩ := hx
    obtain ⟨raw, hraw⟩ := hraw k o ho w (by rw [hsplit]; simp)
    refine ⟨u, hwu, hq, ?_⟩
    cases hraw with
    | bare _ _ hq' => rw [hwu] at hq'; exact absurd rfl hq'
    | quoted body u' hun hb hl =>
      injection hwu with _ hwu
      have : u' = u := List.append_inj_left' hwu rfl
      subst this
      exact unescaped_last hun hl
  obtain ⟨u, hwu, hqu, hlu⟩ := hu
  -- the lines in front
  have hkl : k < r.listing.length := (List.getElem?_eq_some_iff.1 ho).1
  obtain ⟨vs, hrows, hvl, hvs⟩ := printed_rows (r.listing.take k) (fun _ o ws => o = .empty → ws = []) fun j p hp => by
    rw [List.getElem?_take] at hp
    split at hp
    · rename_i hjk
      obtain ⟨ver, h1, h2⟩ := hop j p hp
      obtain ⟨-, hk2⟩ := kept_of_ops h2
      obtain ⟨ws, hrow, -⟩ := restores env.addrOk p (valid_of_ops (words_ok src j) h2) (fun w hw => by
          obtain ⟨raw, hraw⟩ := hraw j p hp w hw
          exact writes_self hraw (Classical.byContradiction fun hn => hmin j hjk ⟨p, hp, w, hw, hn⟩)) hk2 (by
        rintro v rfl
        obtain ⟨n, hn, rfl⟩ := (setsVersion_ops h2).2 v rfl
        have h3 := hver (j + 1) n (.set j n hn)
        obtain ⟨_, _, _, _, h4, _⟩ := hn
        rw [Nat.mod_eq_of_lt h3]
        exact ⟨h4, h3⟩)
      exact ⟨ws, hrow, fun he => row_nil hrow (by rw [he]; rfl)⟩
    · cases hp
  have hvk : vs.length = k := by rw [hvl, List.length_take]; omega
  -- the text
  obtain ⟨name, hname, hstr⟩ := kept_str hkept
  obtain ⟨t, ht⟩ := lineText_split (name :: ws1) ws2 w
  have htext : ∃ rest, listingStr r.listing = ((r.listing.take k).map Op.str).flatMap (fun s => s ++ [chLF]) ++
      (((name :: ws1).flatMap fun x => x ++ [chSpace]) ++ chQuote :: (u ++ chQuote :: rest)) := by
    refine ⟨t ++ chLF :: (r.listing.drop (k + 1)).flatMap (fun p => p.str ++ [chLF]), ?_⟩
    have hsp : r.listing = r.listing.take k ++ o :: r.listing.drop (k + 1) := by
      rw [← (List.getElem?_eq_some_iff.1 ho).2, List.getElem_cons_drop, List.take_append_drop]
    have hstr' : o.str = ((name :: ws1).flatMap fun x => x ++ [chSpace]) ++ (w ++ t) := by
      rw [hstr, hsplit, ← ht, List.cons_append]
    generalize (name :: ws1).flatMap (fun x => x ++ [chSpace]) = z at hstr' ⊢
    conv => lhs; rw [hsp]
    unfold listingStr
    rw [List.flatMap_append, List.flatMap_cons, hstr', hwu, List.flatMap_map]
    simp
  obtain ⟨rest, htext⟩ := htext
  have hgood' : ∀ x ∈ name :: ws1, Writes x x := by
    intro x hx
    rcases List.mem_cons.1 hx with rfl | hx
    · exact hname.writes
    · obtain ⟨raw, hraw⟩ := hraw k o ho x (by rw [hsplit]; simp [hx])
      exact writes_self hraw (hgood x hx)
  obtain ⟨pre', c', hp1, hp2⟩ := lexes_words_before k (chQuote :: (u ++ chQuote :: rest)) hgood' 0
  obtain ⟨ts, err, hts⟩ := lexes_total k c' (chQuote :: (u ++ chQuote :: rest))
  obtain ⟨pre, hp3, hp4⟩ := lexes_rows_before hrows 0 _ _ err (by rw [hvk, Nat.zero_add]; exact hp2 ts err hts)
  have htok : tokens (listingStr r.listing) = pre ++ (pre' ++ ts) := by
    show (readTokens _).1 = _
    rw [htext, readTokens_of_lexes hp4]
  -- its words
  have hwords : ∀ j, (words (tokens (listingStr r.listing)) j).map Token.v = (vs[j]?).getD [] ++ ((if j = k then name :: ws1 else []) ++
      ((tokenKeys ts).filter fun x => decide (x.1 = j) && decide (x.2.2 = .value)).map (·.2.1)) := by
    intro j
    rw [words_tokenKeys, htok, tokenKeys_append, tokenKeys_append, List.filter_append, List.filter_append, List.map_append, List.map_append,
      hp1, hp3, ← lineKeys_words vs 0 j, Nat.zero_add]
    congr 2
    split
    · rename_i hj
      subst hj
      rw [List.filter_eq_self.2 (by simp)]
      simp [Function.comp_def]
    · rename_i hj
      rw [List.filter_eq_nil_iff.2 (by
        intro x hx
        obtain ⟨y, -, rfl⟩ := List.mem_map.1 hx
        simpa using fun h => absurd h.symm hj)]
      rfl
  have hbefore : ∀ j, j < k → (words (tokens (listingStr r.listing)) j).map Token.v = (vs[j]?).getD [] := by
    intro j hj
    rw [hwords j, if_neg (by omega), List.filter_eq_nil_iff.2]
    · simp
    · intro x hx
      unfold tokenKeys at hx
      obtain ⟨t, ht, rfl⟩ := List.mem_map.1 hx
      have := lexes_below hts t (List.mem_filter.1 ht).1
      simp; omega
  -- what it is read to
  obtain ⟨qs, hr, he⟩ := process_eq env (listingStr r.listing)
  rw [he] at hr'
  obtain ⟨lds, l1, l2, -⟩ := assemble_eq hr'
  have hkc : k < lineCount (tokens (listingStr r.listing)) := by
    apply words_lt
    intro h0
    have := hwords k
    rw [h0, if_pos rfl] at this
    simp at this
  have hql : qs.length = lineCount (tokens (listingStr r.listing)) := by rw [hr.length, linesOf_length]
  have hflat : (qs.map fun q => q.ctx.ops).flatten = r.listing := by
    rw [← hl', l2, List.flatMap_def]
  have hline : ∀ j, j < qs.length → ∃ ver, (qs.map fun q => q.ctx.ops)[j]? =
      some (opsOf env.addrOk ver ((words (tokens (listingStr r.listing)) j).map Token.v)) := by
    intro j hj
    obtain ⟨q, h1, h2⟩ := line_ops env.addrOk _ qs hr j (by rw [← hql]; exact hj)
    exact ⟨_, by rw [List.getElem?_map, h1, Option.map_some, h2]⟩
  have hoe : o ≠ .empty := by rintro rfl; exact hkept rfl
  obtain ⟨more, hmore⟩ := head_at k (qs.map fun q => q.ctx.ops) o (by rw [List.length_map, hql]; exact hkc) (by
      intro q hq
      obtain ⟨j, hj⟩ := List.mem_iff_getElem?.1 hq
      have hjl := (List.getElem?_eq_some_iff.1 hj).1
      rw [List.length_map] at hjl
      obtain ⟨ver, h1⟩ := hline j hjl
      rw [hj] at h1
      injection h1 with h1
      rw [h1]
      exact opsOf_form _) (by
      intro i hi hie
      rw [hflat] at hie
      obtain ⟨ver, h1⟩ := hline i (by omega)
      rw [h1, hbefore i hi]
      have hv : vs[i]? = some vs[i] := List.getElem?_eq_getElem (by omega)
      rw [hv, hvs i _ .empty hv (by rw [List.getElem?_take, if_pos hi]; exact hie) rfl]
      rfl) (by rw [hflat]; exact ho) hoe
  obtain ⟨ver, hk1⟩ := hline k (by omega)
  rw [hmore] at hk1
  injection hk1 with hk1
  obtain ⟨x, more', hx⟩ := kept_words hk1.symm hkept
  rw [hwords k, if_pos rfl, List.getElem?_eq_none (by omega), hsplit] at hx
  simp only [Option.getD_none, List.nil_append, List.cons_append, List.append_assoc, List.cons.injEq] at hx
  have hx := List.append_cancel_left hx.2
  rcases inner_first hqu hlu rfl hts with rfl | ⟨t, ts', rfl, h1, h2, h3⟩
  · simp [tokenKeys] at hx
  · have : tokenKeys (t :: ts') = (t.l, t.v, t.t) :: tokenKeys ts' := by simp [tokenKeys, h2]
    rw [this, List.filter_cons_of_pos (by simp [h1, h2])] at hx
    simp only [List.map_cons, List.cons.injEq] at hx
    exact h3 (hx.1.trans hwu)

/-- **C26** (exactly, with any labels.)  For a program without surplus words whose versions are below 256: the
printed listing is read to the same listing if and only if every instruction is one that reads back in its
version, and no label or address has a quote between its quotes. -/
theorem C26_quotes (env : Env) (src : Bytes) (r : ProcessResult) (h : process env src = some r) (hs : NoSurplus r)
    (hver : ∀ k ver, VersionAt (tokens src) k ver → ver < 256) :
    (∃ r', process env (listingStr r.listing) = some r' ∧ r'.listing = r.listing) ↔
      (∀ o ∈ r.listing, ∀ w ∈ keptWords o, NoInnerQuote w) ∧
      ∀ (k ver : Nat) (o : Op), r.listing[k]? = some o → VersionAt (tokens src) k ver → Restorable ver o := by
  constructor
  · rintro ⟨r', hr', hl'⟩
    have hq := inner_lost h hs hver hr' hl'
    exact ⟨hq, (C26_exact env src r h hs hver hq).1.1 ⟨r', hr', hl'⟩⟩
  · rintro ⟨hq, hres⟩
    exact (C26_exact env src r h hs hver hq).1.2 hres

/-- The hypotheses of `C26_quotes` hold of a program whose label has a quote between quotes, which is printed
without the backslash in front of it, and is not read back. -/
example : ∃ r, process sampleEnv b!"b \"a\\\"b\"" = some r ∧ r.listing = [.branch .b b!"\"a\"b\""] ∧
    ¬ ∃ r', process sampleEnv (listingStr r.listing) = some r' ∧ r'.listing = r.listing := by
  have h1 : (process sampleEnv b!"b \"a\\\"b\"").isSome = true := by decide +kernel
  have h2 : (((process sampleEnv b!"b \"a\\\"b\"").map (·.diagnostics)).getD []).all
      (fun d => match d.kind with | .parse .tooManyValues => false | _ => true) = true := by decide +kernel
  have h3 : ((process sampleEnv b!"b \"a\\\"b\"").map (·.listing)).getD [] = [.branch .b b!"\"a\"b\""] := by decide +kernel
  have hw : (words (tokens b!"b \"a\\\"b\"") 0).map Token.v = [b!"b", b!"\"a\"b\""] := by decide +kernel
  have hc : lineCount (tokens b!"b \"a\\\"b\"") = 1 := by decide +kernel
  obtain ⟨r, hr⟩ := Option.isSome_iff_exists.1 h1
  rw [hr] at h2 h3
  replace h2 := List.all_eq_true.1 (show r.diagnostics.all _ = true from h2)
  replace h3 : r.listing = _ := h3
  refine ⟨r, hr, h3, fun hback => ?_⟩
  have hex := C26_quotes sampleEnv b!"b \"a\\\"b\"" r hr (by
      intro d hd hk
      have := h2 d hd
      rw [hk] at this
      cases this) (by
    intro k ver h
    clear h1 h2 h3 hr hback
    induction h with
    | first => decide
    | set k n h =>
      exfalso
      obtain ⟨s, rest, he, -⟩ := h
      by_cases hk : k = 0
      · subst hk
        rw [hw] at he
        simp at he
      · have := words_lt (src := b!"b \"a\\\"b\"") (k := k) (by
          intro h0
          rw [show words (tokens _) k = [] from h0] at he
          simp at he)
        rw [hc] at this
        omega
    | keep k v _ _ ih => exact ih)
  exact (hex.1 hback).1 (.branch .b b!"\"a\"b\"") (by rw [h3]; simp) b!"\"a\"b\"" (by simp [keptWords]) b!"a\"b" rfl (by decide)

end Teal.Props
