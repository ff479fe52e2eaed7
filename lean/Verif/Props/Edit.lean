import Verif.Lemmas.Edit2

/-!
# Properties of the language server: what edits do to the program
-/

namespace Teal.Lsp

open Teal Teal.Spec Teal.Lsp.Spec Teal.Props

/-- The words of a line with label `n` called `new`. -/
def renameWords (n new : Bytes) : List Bytes → List Bytes
  | [] => []
  | w :: ws =>
    if labelName w = some n then (new ++ [chColon]) :: ws
    else if w ∈ [b!"b", b!"bz", b!"bnz", b!"callsub"] then w :: ((ws.take 1).map (fun l => if l = n then new else l) ++ ws.drop 1)
    else if w ∈ [b!"switch", b!"match"] then w :: ws.map fun l => if l = n then new else l
    else w :: ws

theorem all_some (ver : Nat) (ws : List Bytes) : Reader.all (oneWord some) ver ws = some (ws, []) := by
  have : ∀ (k : Nat) (ws : List Bytes), ws.length ≤ k → Reader.many (oneWord some) k ws = some ws := by
    intro k
    induction k with
    | zero =>
      intro ws h
      cases ws with
      | nil => rfl
      | cons w ws => simp at h
    | succ k ih =>
      intro ws h
      cases ws with
      | nil => rfl
      | cons w ws =>
        simp only [Reader.many, oneWord, Option.map_some]
        rw [ih ws (by simpa using h)]
        rfl
  unfold Reader.all
  rw [this _ _ (Nat.le_refl _)]; rfl

theorem label_shapes : ∀ e ∈ opsList, (∀ k, e.shape = .branch k → e.name ∈ [b!"b", b!"bz", b!"bnz", b!"callsub"]) ∧
    (e.shape = .switch → e.name ∈ [b!"switch", b!"match"]) ∧ (e.shape = .match_ → e.name ∈ [b!"switch", b!"match"]) := by
  have : ∀ e ∈ opsList, (match e.shape with
      | .branch _ => decide (e.name ∈ [b!"b", b!"bz", b!"bnz", b!"callsub"])
      | .switch => decide (e.name ∈ [b!"switch", b!"match"])
      | .match_ => decide (e.name ∈ [b!"switch", b!"match"])
      | _ => true) = true := by decide +kernel
  intro e he
  have h := this e he
  refine ⟨?_, ?_, ?_⟩
  · intro k hk; rw [hk] at h; simpa using h
  · intro hk; rw [hk] at h; simpa using h
  · intro hk; rw [hk] at h; simpa using h

theorem bind_some {α : Type} {m : Reader α} {f : α → Reader Op} {ver : Nat} {ws rest : List Bytes} {o : Op} :
    m.bind f ver ws = some (o, rest) ↔ ∃ a ws', m ver ws = some (a, ws') ∧ f a ver ws' = some (o, rest) := by
  unfold Reader.bind
  cases m ver ws with
  | none => simp
  | some x => obtain ⟨a, ws'⟩ := x; simp

theorem ret_some {a o : Op} {ver : Nat} {ws rest : List Bytes} : Reader.ret a ver ws = some (o, rest) ↔ a = o ∧ ws = rest := by
  simp [Reader.ret]

theorem eval_renamed {addrOk : Bytes → Bool} {sh : Shape} {ver : Nat} {ws rest : List Bytes} {o : Op} (n new : Bytes)
    (h1 : ∀ k, sh ≠ .branch k) (h2 : sh ≠ .switch) (h3 : sh ≠ .match_) (h : evalShape addrOk sh ver ws = some (o, rest)) :
    renamed n new o = o := by
  cases sh <;> simp only [evalShape, bind_some, ret_some] at h <;>
    first
    | (exact absurd rfl (h1 _))
    | (exact absurd rfl h2)
    | (exact absurd rfl h3)
    | (obtain ⟨rfl, -⟩ := h; rfl)
    | (obtain ⟨_, _, -, rfl, -⟩ := h; rfl)
    | (obtain ⟨_, _, -, _, _, -, rfl, -⟩ := h; rfl)
    | (obtain ⟨_, _, -, _, _, -, _, _, -, rfl, -⟩ := h; rfl)
    | (obtain ⟨i, _, -, rfl, -⟩ := h; cases i <;> rfl)
    | (obtain ⟨_, _, -, i, _, -, rfl, -⟩ := h; cases i <;> rfl)
    | (obtain ⟨_, _, -, _, _, -, i, _, -, rfl, -⟩ := h; cases i <;> rfl)
    | (obtain ⟨i, _, -, h⟩ := h
       cases i with
       | none => simp only [ret_some] at h; obtain ⟨rfl, -⟩ := h; rfl
       | some s => simp only [bind_some, ret_some] at h; obtain ⟨_, _, -, rfl, -⟩ := h; rfl)

theorem labelName_colon {w : Bytes} (h : w.getLast? ≠ some chColon) (n : Bytes) : labelName w ≠ some n := by
  unfold labelName
  rw [if_neg (fun h' => h h'.1)]
  simp

theorem shape_of {w : Bytes} {sh : Shape} (h : (opsGet w).map (·.shape) = some sh) : ∃ e, opsGet w = some e ∧ e.shape = sh :=
  Option.map_eq_some_iff.1 h

theorem ops_renamed (addrOk : Bytes → Bool) (ver : Nat) (n new : Bytes) (hnew : new ≠ []) (ws : List Bytes) :
    opsOf addrOk ver (renameWords n new ws) = (opsOf addrOk ver ws).map (renamed n new) := by
  cases ws with
  | nil => rfl
  | cons w ws =>
    rw [renameWords]
    by_cases hcol : w.getLast? = some chColon
    · rw [opsOf, if_pos hcol]
      by_cases hl : labelName w = some n
      · rw [if_pos hl, opsOf, if_pos (by simp), List.dropLast_concat, if_neg hnew]
        obtain ⟨h1, h2⟩ := labelName_eq.1 hl
        rw [h1, List.dropLast_concat, if_neg h2]
        simp [renamed]
      · have hno : w ∉ [b!"b", b!"bz", b!"bnz", b!"callsub"] ∧ w ∉ [b!"switch", b!"match"] := by
          constructor <;> (intro hm; simp only [List.mem_cons, List.not_mem_nil, or_false] at hm)
          · rcases hm with h | h | h | h <;> rw [h] at hcol <;> revert hcol <;> decide
          · rcases hm with h | h <;> rw [h] at hcol <;> revert hcol <;> decide
        rw [if_neg hl, if_neg hno.1, if_neg hno.2, opsOf, if_pos hcol]
        by_cases hd : w.dropLast = []
        · rw [if_pos hd]; rfl
        · rw [if_neg hd]
          have : w.dropLast ≠ n := by
            intro he
            apply hl
            unfold labelName
            rw [if_pos ⟨hcol, fun h => hd (by rw [h]; rfl)⟩, he]
          simp [renamed, this]
    · rw [if_neg (labelName_colon hcol n)]
      by_cases hb : w ∈ [b!"b", b!"bz", b!"bnz", b!"callsub"]
      · rw [if_pos hb]
        obtain ⟨e, k, he, hk⟩ : ∃ e k, opsGet w = some e ∧ e.shape = .branch k := by
          simp only [List.mem_cons, List.not_mem_nil, or_false] at hb
          rcases hb with rfl | rfl | rfl | rfl
          · exact shape_of (sh := .branch .b) (by decide +kernel) |> fun ⟨e, h1, h2⟩ => ⟨e, _, h1, h2⟩
          · exact shape_of (sh := .branch .bz) (by decide +kernel) |> fun ⟨e, h1, h2⟩ => ⟨e, _, h1, h2⟩
          · exact shape_of (sh := .branch .bnz) (by decide +kernel) |> fun ⟨e, h1, h2⟩ => ⟨e, _, h1, h2⟩
          · exact shape_of (sh := .branch .callsub) (by decide +kernel) |> fun ⟨e, h1, h2⟩ => ⟨e, _, h1, h2⟩
        have hp : w ≠ b!"#pragma" := by
          rintro rfl; revert hb; decide
        rw [opsOf, if_neg hcol, if_neg hp, he, opsOf, if_neg hcol, if_neg hp, he]
        dsimp only
        rw [hk]
        cases ws with
        | nil => rfl
        | cons x xs =>
          show readOps (some (.branch k _, xs)) = (readOps (some (.branch k x, xs))).map _
          cases xs <;> rfl
      · rw [if_neg hb]
        by_cases hsw : w ∈ [b!"switch", b!"match"]
        · rw [if_pos hsw]
          have hp : w ≠ b!"#pragma" := by
            rintro rfl; revert hsw; decide
          rw [opsOf, if_neg hcol, if_neg hp, opsOf, if_neg hcol, if_neg hp]
          simp only [List.mem_cons, List.not_mem_nil, or_false] at hsw
          rcases hsw with rfl | rfl
          · have : ∃ e, opsGet b!"switch" = some e ∧ e.shape = .switch := shape_of (by decide +kernel)
            obtain ⟨e, h1, h2⟩ := this
            rw [h1]; dsimp only; rw [h2]
            simp only [evalShape, Reader.bind, all_some, Reader.ret, readOps]
            rfl
          · have : ∃ e, opsGet b!"match" = some e ∧ e.shape = .match_ := shape_of (by decide +kernel)
            obtain ⟨e, h1, h2⟩ := this
            rw [h1]; dsimp only; rw [h2]
            simp only [evalShape, Reader.bind, all_some, Reader.ret, readOps]
            rfl
        · rw [if_neg hsw, opsOf, if_neg hcol]
          by_cases hp : w = b!"#pragma"
          · rw [if_pos hp]
            cases pragmaOf (w :: ws) <;> rfl
          · rw [if_neg hp]
            cases he : opsGet w with
            | none => rfl
            | some e =>
              obtain ⟨hm, hname⟩ := opsGet_mem he
              obtain ⟨s1, s2, s3⟩ := label_shapes e hm
              rw [hname] at s1 s2 s3
              dsimp only
              match hev : evalShape addrOk e.shape ver ws with
              | none => rfl
              | some (o, []) =>
                have := eval_renamed n new (fun k h => hb (s1 k h)) (fun h => hsw (s2 h)) (fun h => hsw (s3 h)) hev
                simp [readOps, this]
              | some (o, _ :: _) =>
                have := eval_renamed n new (fun k h => hb (s1 k h)) (fun h => hsw (s2 h)) (fun h => hsw (s3 h)) hev
                simp [readOps, this]
                rfl

theorem sets_renamed (n new : Bytes) (ws : List Bytes) (v : Nat) :
    SetsVersion (renameWords n new ws) v ↔ SetsVersion ws v := by
  cases ws with
  | nil => exact Iff.rfl
  | cons w ws =>
    by_cases hp : w = b!"#pragma"
    · subst hp
      rw [renameWords, if_neg (labelName_colon (by decide) n), if_neg (by decide), if_neg (by decide)]
    · have hright : ¬ SetsVersion (w :: ws) v := by
        rintro ⟨s, rest, he, -⟩
        injection he with he
        exact hp he
      have hleft : ¬ SetsVersion (renameWords n new (w :: ws)) v := by
        rintro ⟨s, rest, he, -⟩
        rw [renameWords] at he
        split at he
        · injection he with he
          have := congrArg List.getLast? he
          revert this
          simp [chColon]
        · split at he
          · injection he with he; exact hp he
          · split at he <;> (injection he with he; exact hp he)
      exact ⟨fun h => absurd h hleft, fun h => absurd h hright⟩

/-- What renaming does to the words of a text. -/
def renamePlan (ts : List Token) (n new : Bytes) : Plan := fun t =>
  if labelWord ts t.l = some t ∧ labelName t.v = some n then some (n.length, new, new ++ [chColon])
  else if t ∈ labelOperands (words ts t.l) ∧ t.v = n then some (n.length, new, new)
  else none

theorem words_nodup (src : Bytes) (k : Nat) : (words (tokens src) k).Pairwise fun a b => a ≠ b := by
  refine (words_pairwise src k).imp_of_mem ?_
  rintro a b ha hb hab rfl
  have hm := mem_words.1 ha
  have := value_width hm.1 hm.2.2
  omega

theorem words_rename (src n new : Bytes) (k : Nat) :
    (words (tokens src) k).map (renamePlan (tokens src) n new).value = renameWords n new ((words (tokens src) k).map Token.v) := by
  have hnd := words_nodup src k
  cases hw : words (tokens src) k with
  | nil => rfl
  | cons t rest =>
    rw [hw, List.pairwise_cons] at hnd
    have hl : ∀ x ∈ t :: rest, x.l = k := fun x hx => (mem_words.1 (by rw [hw]; exact hx)).2.1
    have hlw : ∀ x, labelWord (tokens src) k = some x → x = t := by
      intro x hx
      unfold labelWord at hx
      rw [hw] at hx
      exact (Option.some.inj (Option.filter_eq_some_iff.1 hx).1).symm
    rw [List.map_cons, List.map_cons, renameWords]
    have hrest : ∀ x ∈ rest, (renamePlan (tokens src) n new).value x = if x ∈ labelOperands (t :: rest) ∧ x.v = n then new else x.v := by
      intro x hx
      have h1 : ¬ (labelWord (tokens src) x.l = some x ∧ labelName x.v = some n) := by
        rintro ⟨h, -⟩
        rw [hl x (by simp [hx])] at h
        exact hnd.1 x hx (hlw x h).symm
      unfold Plan.value renamePlan
      rw [if_neg h1, hl x (by simp [hx]), hw]
      by_cases h2 : x ∈ labelOperands (t :: rest) ∧ x.v = n
      · rw [if_pos h2, if_pos h2]
      · rw [if_neg h2, if_neg h2]
    by_cases hn : labelName t.v = some n
    · have hlt : labelWord (tokens src) k = some t := by
        unfold labelWord
        rw [hw, List.head?_cons, Option.filter_some, hn]; rfl
      rw [if_pos hn]
      congr 1
      · unfold Plan.value renamePlan
        rw [if_pos ⟨by rw [hl t (by simp)]; exact hlt, hn⟩]
      · apply List.map_congr_left
        intro x hx
        rw [hrest x hx, if_neg]
        rintro ⟨h, -⟩
        have := labelWord_operands hlt
        rw [hw] at this
        rw [this] at h
        cases h
    · rw [if_neg hn]
      have ht : (renamePlan (tokens src) n new).value t = t.v := by
        unfold Plan.value renamePlan
        rw [if_neg (fun h => hn h.2), if_neg]
        rintro ⟨h, -⟩
        rw [hl t (by simp), hw] at h
        simp only [labelOperands] at h
        split at h
        · exact hnd.1 t (List.mem_of_mem_take h) rfl
        · split at h
          · exact hnd.1 t h rfl
          · cases h
      rw [ht]
      by_cases hb : t.v ∈ [b!"b", b!"bz", b!"bnz", b!"callsub"]
      · rw [if_pos hb]
        congr 1
        have hops : labelOperands (t :: rest) = rest.take 1 := by simp only [labelOperands]; rw [if_pos hb]
        rw [hops] at hrest
        cases rest with
        | nil => rfl
        | cons a as =>
          rw [List.map_cons, hrest a (by simp)]
          simp only [List.take_succ_cons, List.take_zero, List.mem_singleton, true_and, List.map_cons, List.map_nil,
            List.drop_succ_cons, List.drop_zero, List.singleton_append]
          congr 1
          apply List.map_congr_left
          intro x hx
          rw [hrest x (by simp [hx]), if_neg]
          rintro ⟨h, -⟩
          simp only [List.take_succ_cons, List.take_zero, List.mem_singleton] at h
          exact (List.pairwise_cons.1 hnd.2).1 x hx h.symm
      · rw [if_neg hb]
        by_cases hs : t.v ∈ [b!"switch", b!"match"]
        · rw [if_pos hs]
          congr 1
          have hops : labelOperands (t :: rest) = rest := by simp only [labelOperands]; rw [if_neg hb, if_pos hs]
          rw [hops] at hrest
          rw [List.map_map]
          apply List.map_congr_left
          intro x hx
          rw [hrest x hx]
          simp [hx]
        · rw [if_neg hs]
          congr 1
          have hops : labelOperands (t :: rest) = [] := by simp only [labelOperands]; rw [if_neg hb, if_neg hs]
          rw [hops] at hrest
          apply List.map_congr_left
          intro x hx
          rw [hrest x hx]
          simp

/-- A word without quotes is as wide as it is long. -/
theorem bare_width {src : Bytes} {t : Token} (h : t ∈ tokens src) (hv : t.t = .value) (hq : t.v.head? ≠ some chQuote) :
    t.e = t.b + t.v.length := by
  obtain ⟨ps, tail, hd, hp⟩ := C02_positions_partial src
  unfold tokens at h
  rw [hd.toks_eq] at h
  obtain ⟨p, hm, rfl⟩ := List.mem_map.1 h
  obtain ⟨ps1, ps2, rfl⟩ := List.append_of_mem hm
  have h1 := (hp ps1 p ps2 rfl).1
  rcases (hd.pieces p hm).2 with ⟨ht, _⟩ | ⟨ht, _⟩ | ⟨_, h2, h3, _⟩ | ⟨_, body, u, h2, h3, _⟩
  · rw [hv] at ht; cases ht
  · rw [hv] at ht; cases ht
  · rw [h1, h2]
  · rw [h3] at hq; simp at hq

theorem bare_of_token {src : Bytes} {t : Token} (h : t ∈ tokens src) (hv : t.t = .value) (hq : t.v.head? ≠ some chQuote) :
    Bare t.v := by
  obtain ⟨err, hl, -⟩ := readTokens_lexes src
  rcases token_ok hl t h hv with h | ⟨body, h⟩
  · exact h
  · rw [h] at hq; simp at hq

theorem bare_colon {w : Bytes} (h : Bare w) : Bare (w ++ [chColon]) := by
  obtain ⟨h1, h2, h3, h4⟩ := h
  refine ⟨by simp, ?_, ?_, ?_⟩
  · rw [List.head?_append_of_ne_nil _ h1]; exact h2
  · match w, h1, h3 with
    | [a], _, _ => simp [chSlash, chColon]
    | a :: b :: w, _, h3 => simpa using h3
  · intro x hx
    rcases List.mem_append.1 hx with hx | hx
    · exact h4 x hx
    · rw [List.mem_singleton.1 hx]; decide

theorem labelWord_inWords {ts : List Token} {k : Nat} {t : Token} (h : labelWord ts k = some t) : t ∈ words ts k := by
  unfold labelWord at h
  exact List.mem_of_head? (Option.filter_eq_some_iff.1 h).1

theorem plan_fits {src n new : Bytes} (hq : n.head? ≠ some chQuote) (hnew : PlainWord new) :
    ∀ t ∈ tokens src, (renamePlan (tokens src) n new).Fits t := by
  intro t ht k x w hft
  unfold renamePlan at hft
  split at hft
  · rename_i h
    simp only [Option.some.injEq, Prod.mk.injEq] at hft
    obtain ⟨rfl, rfl, rfl⟩ := hft
    obtain ⟨h1, h2⟩ := labelName_eq.1 h.2
    have hval : t.t = .value := (mem_words.1 (labelWord_inWords h.1)).2.2
    rw [h1]
    refine ⟨hval, ?_, by simp, ?_⟩
    · rw [List.head?_append_of_ne_nil _ h2]; exact hq
    · rw [List.drop_left]
      exact (bare_colon hnew).writes
  · split at hft
    · rename_i h
      simp only [Option.some.injEq, Prod.mk.injEq] at hft
      obtain ⟨rfl, rfl, rfl⟩ := hft
      have hm := mem_words.1 ((labelOperands_sublist _).subset h.1)
      rw [h.2]
      refine ⟨hm.2.2, hq, Nat.le_refl _, ?_⟩
      rw [List.drop_length, List.append_nil]
      exact Bare.writes hnew
    · cases hft

/-- The edits of a renaming are those of its plan. -/
theorem plan_edits {src n new : Bytes} {es : List TextEdit} (hq : n.head? ≠ some chQuote) (h : RenamesAll src n new es) (e : TextEdit) :
    e ∈ es ↔ ∃ t ∈ tokens src, ∃ k x w, renamePlan (tokens src) n new t = some (k, x, w) ∧
      e = ⟨Lsp.onLine t.l t.b ((t.b + k : Nat) : Int), x⟩ := by
  constructor
  · intro he
    obtain ⟨l, b, c, h1, ho⟩ := (h.places e.range).1 (List.mem_map.2 ⟨e, he, rfl⟩)
    have h2 := h.text e he
    have heq : e = ⟨Lsp.onLine l b c, new⟩ := by cases e; simp only [TextEdit.mk.injEq]; exact ⟨h1, h2⟩
    cases ho with
    | definition t ht hn =>
      have hp := mem_words.1 (labelWord_inWords ht)
      refine ⟨t, hp.1, n.length, new, new ++ [chColon], ?_, ?_⟩
      · unfold renamePlan
        rw [if_pos ⟨by rw [hp.2.1]; exact ht, hn⟩]
      · rw [heq, hp.2.1]
    | reference t ht hn =>
      have hm := mem_words.1 ((labelOperands_sublist _).subset ht)
      refine ⟨t, hm.1, n.length, new, new, ?_, ?_⟩
      · unfold renamePlan
        rw [if_neg, if_pos ⟨by rw [hm.2.1]; exact ht, hn⟩]
        rintro ⟨h3, -⟩
        have := labelWord_operands h3
        rw [hm.2.1] at this
        rw [this] at ht
        cases ht
      · rw [heq, hm.2.1, bare_width hm.1 hm.2.2 (by rw [hn]; exact hq), hn]
  · rintro ⟨t, ht, k, x, w, hft, rfl⟩
    have key : ∀ rg : Rg, rg ∈ es.map (·.range) → (⟨rg, new⟩ : TextEdit) ∈ es := by
      intro rg hr
      obtain ⟨e, he, rfl⟩ := List.mem_map.1 hr
      have := h.text e he
      subst this
      exact he
    unfold renamePlan at hft
    split at hft
    · rename_i hd
      simp only [Option.some.injEq, Prod.mk.injEq] at hft
      obtain ⟨rfl, rfl, -⟩ := hft
      exact key _ ((h.places _).2 ⟨t.l, t.b, t.b + n.length, rfl, .definition t.l t hd.1 hd.2⟩)
    · split at hft
      · rename_i hd
        simp only [Option.some.injEq, Prod.mk.injEq] at hft
        obtain ⟨rfl, rfl, -⟩ := hft
        have hm := mem_words.1 ((labelOperands_sublist _).subset hd.1)
        refine key _ ((h.places _).2 ⟨t.l, t.b, t.b + n.length, rfl, ?_⟩)
        have := Occurs.reference (n := n) t.l t hd.1 hd.2
        rw [bare_width hm.1 hm.2.2 (by rw [hd.2]; exact hq), hd.2] at this
        exact this
      · cases hft

end Teal.Lsp

namespace Teal.Props

open Teal Teal.Spec Teal.Lsp Teal.Lsp.Spec

/-- A set of edits gives one text. -/
theorem edited_unique (src : Bytes) (es : List TextEdit) (a b : Bytes) (ha : Edited src es a) (hb : Edited src es b) : a = b := by
  obtain ⟨cs, h1, h2, h3, h4, rfl⟩ := ha
  obtain ⟨ds, k1, k2, k3, k4, rfl⟩ := hb
  have : cs = ds := by
    refine pairwise_ext ?_ h4 k4 ?_
    · intro x y hxy hyx
      omega
    · intro c
      constructor
      · intro hc
        obtain ⟨e, he, hi⟩ := h2 c hc
        obtain ⟨d, hd, hi'⟩ := k1 e he
        rw [isCut_unique hi hi']; exact hd
      · intro hc
        obtain ⟨e, he, hi⟩ := k2 c hc
        obtain ⟨d, hd, hi'⟩ := h1 e he
        rw [isCut_unique hi hi']; exact hd
  rw [this]

theorem version_sets {ts us : List Token} (hw : ∀ k v, SetsVersion ((words ts k).map Token.v) v ↔ SetsVersion ((words us k).map Token.v) v) {k v : Nat}
    (h : VersionAt ts k v) : VersionAt us k v := by
  induction h with
  | first => exact .first
  | set k n h => exact .set k n ((hw k n).1 h)
  | keep k v _ hn ih => exact .keep k v ih fun n h => hn n ((hw k n).2 h)

/-- **C74** (partial: for labels written without quotes, in texts whose strings do not contain line
breaks; see `C74_false` for others.)  The text after a renaming is read to the same program, with
the label renamed. -/
theorem C74_partial (h : Host) (ms : List (Choice × Msg)) (u src : Bytes) (p : Pos) (new : Bytes) (a : Result)
    (ha : Answered h ms u src (.rename p new) a) (t : Token) (n : Bytes) (ht : Under (tokens src) p t n)
    (hu : ∀ t' n', Under (tokens src) p t' n' → t' = t) (hq : n.head? ≠ some chQuote) (hnew : PlainWord new)
    (hone : ∀ t ∈ tokens src, t.t = .value → ∀ x ∈ t.v, ¬ Break x)
    (env : Env) (r : ProcessResult) (hr : process env src = some r) (hs : NoSurplus r) :
    ∃ es src', a = .workspaceEdit u es ∧ Edited src es src' ∧
      ∃ r', process env src' = some r' ∧ r'.listing = r.listing.map (renamed n new) ∧ r'.version = r.version := by
  obtain ⟨es, rfl, hes⟩ := C50_partial h ms u src p new a ha t n ht hu
  obtain ⟨src', hed, hlc, hw⟩ := edit_words (renamePlan (tokens src) n new) src (plan_fits hq hnew) hone es (plan_edits hq hes)
  refine ⟨es, src', rfl, hed, ?_⟩
  have hw' : ∀ k, (words (tokens src') k).map Token.v = renameWords n new ((words (tokens src) k).map Token.v) := by
    intro k; rw [hw k, words_rename]
  obtain ⟨hlen, hver, huniq, hops⟩ := listing_ops hr hs
  have hsets : ∀ k v, SetsVersion ((words (tokens src') k).map Token.v) v ↔ SetsVersion ((words (tokens src) k).map Token.v) v := by
    intro k v; rw [hw' k, sets_renamed]
  obtain ⟨r', h1, h2, -, h4, -⟩ := program_of_lines env src' (r.listing.map (renamed n new)) (by rw [hlc, List.length_map, hlen]) (by
    intro k ver o ho hv
    rw [List.getElem?_map] at ho
    obtain ⟨o', ho', rfl⟩ := Option.map_eq_some_iff.1 ho
    rw [hw' k, ops_renamed env.addrOk ver n new hnew.1, hops k ver o' ho' (version_sets hsets hv)]
    rfl)
  refine ⟨r', h1, h2, ?_⟩
  rw [List.length_map] at h4
  exact huniq _ _ (Nat.le_of_eq hlen) (version_sets hsets h4) _ hver

theorem at_of (pre post : Bytes) (l c o : Nat) (h1 : pre.length = o) (h2 : breaks pre = l) (h3 : column pre = c)
    (h4 : ¬ (pre.getLast? = some chCR ∧ post.head? = some chLF)) : At (pre ++ post) l c o :=
  ⟨pre, post, rfl, h1, h2, h3, h4⟩

/-- The hypotheses of `C74_partial` are met, and this is what it says in one case. -/
example :
    Answered sampleHost sampleSession b!"u" b!"b x\nx:" (.rename ⟨1, 0⟩ b!"yy")
      (.workspaceEdit b!"u" [⟨Lsp.onLine 1 0 1, b!"yy"⟩, ⟨Lsp.onLine 0 2 3, b!"yy"⟩]) ∧
    Under (tokens b!"b x\nx:") ⟨1, 0⟩ { v := b!"x:", l := 1, b := 0, e := 2, t := .value } b!"x" ∧
    (∀ t ∈ tokens b!"b x\nx:", t.t = .value → ∀ x ∈ t.v, ¬ Break x) ∧ PlainWord b!"yy" ∧
    Edited b!"b x\nx:" [⟨Lsp.onLine 1 0 1, b!"yy"⟩, ⟨Lsp.onLine 0 2 3, b!"yy"⟩] b!"b yy\nyy:" ∧
    (process sampleEnv b!"b x\nx:").map (·.listing) = some [.branch .b b!"x", .label b!"x"] ∧
    (process sampleEnv b!"b yy\nyy:").map (·.listing) = some [.branch .b b!"yy", .label b!"yy"] := by
  refine ⟨sample_answered _ _ (by decide +kernel), .definition _ _ (by decide +kernel) (by decide +kernel) ?_,
    by decide +kernel, ⟨by decide, by decide, by decide, by decide⟩, ?_, by decide +kernel, by decide +kernel⟩
  · simp [On]
  · refine ⟨[⟨2, 3, b!"yy"⟩, ⟨4, 5, b!"yy"⟩], ?_, ?_, by simp, by simp, rfl⟩
    · intro e he
      simp only [List.mem_cons, List.not_mem_nil, or_false] at he
      rcases he with rfl | rfl
      · exact ⟨⟨4, 5, b!"yy"⟩, by simp, 1, 0, 1, 1, rfl, at_of b!"b x\n" b!"x:" 1 0 4 rfl (by decide) (by decide) (by decide),
          at_of b!"b x\nx" b!":" 1 1 5 rfl (by decide) (by decide) (by decide), rfl⟩
      · exact ⟨⟨2, 3, b!"yy"⟩, by simp, 0, 2, 0, 3, rfl, at_of b!"b " b!"x\nx:" 0 2 2 rfl (by decide) (by decide) (by decide),
          at_of b!"b x" b!"\nx:" 0 3 3 rfl (by decide) (by decide) (by decide), rfl⟩
    · intro c hc
      simp only [List.mem_cons, List.not_mem_nil, or_false] at hc
      rcases hc with rfl | rfl
      · exact ⟨⟨Lsp.onLine 0 2 3, b!"yy"⟩, by simp, 0, 2, 0, 3, rfl, at_of b!"b " b!"x\nx:" 0 2 2 rfl (by decide) (by decide) (by decide),
          at_of b!"b x" b!"\nx:" 0 3 3 rfl (by decide) (by decide) (by decide), rfl⟩
      · exact ⟨⟨Lsp.onLine 1 0 1, b!"yy"⟩, by simp, 1, 0, 1, 1, rfl, at_of b!"b x\n" b!"x:" 1 0 4 rfl (by decide) (by decide) (by decide),
          at_of b!"b x\nx" b!":" 1 1 5 rfl (by decide) (by decide) (by decide), rfl⟩

/-- C74 is false after a string with a line break in it: lines are counted differently, so the edit
for the label after it replaces the closing quote of the string. -/
theorem C74_false : ∃ es, Answered sampleHost (openSession b!"byte \"\n\"\nx:") b!"u" b!"byte \"\n\"\nx:"
      (.rename ⟨1, 0⟩ b!"y") (.workspaceEdit b!"u" es) ∧
    Under (tokens b!"byte \"\n\"\nx:") ⟨1, 0⟩ { v := b!"x:", l := 1, b := 0, e := 2, t := .value } b!"x" ∧
    Edited b!"byte \"\n\"\nx:" es b!"byte \"\ny\nx:" ∧
    (process sampleEnv b!"byte \"\n\"\nx:").map (·.listing) = some [.byte b!"\n", .label b!"x"] ∧
    (process sampleEnv b!"byte \"\ny\nx:").map (·.listing) = some [.empty] := by
  refine ⟨[⟨Lsp.onLine 1 0 1, b!"y"⟩], open_answered _ _ _ (by decide +kernel), .definition _ _ (by decide +kernel) (by decide +kernel) ?_,
    ?_, by decide +kernel, by decide +kernel⟩
  · simp [On]
  · refine ⟨[⟨7, 8, b!"y"⟩], ?_, ?_, by simp, by simp, rfl⟩
    · intro e he
      rw [List.mem_singleton.1 he]
      exact ⟨⟨7, 8, b!"y"⟩, by simp, 1, 0, 1, 1, rfl, at_of b!"byte \"\n" b!"\"\nx:" 1 0 7 rfl (by decide) (by decide) (by decide),
        at_of b!"byte \"\n\"" b!"\nx:" 1 1 8 rfl (by decide) (by decide) (by decide), rfl⟩
    · intro c hc
      rw [List.mem_singleton.1 hc]
      exact ⟨⟨Lsp.onLine 1 0 1, b!"y"⟩, by simp, 1, 0, 1, 1, rfl, at_of b!"byte \"\n" b!"\"\nx:" 1 0 7 rfl (by decide) (by decide) (by decide),
        at_of b!"byte \"\n\"" b!"\nx:" 1 1 8 rfl (by decide) (by decide) (by decide), rfl⟩

end Teal.Props
