import Verif.Props.Shade
import Verif.Spec.ShadeOnce

/-!
# How often a word is highlighted

C88: each word once, but the numbers of `intcblock` and `pushints` twice.
-/

namespace Teal.Lsp
open Teal Teal.Spec Teal.Lsp.Spec Teal.Props P

/-- What is collected from a line. -/
def lineSems (o : LineOut) : List SemanticToken :=
  o.ctx.mcrs.map (fun t => semToken t.l t.b t.e 4) ++ o.opTok.toList.map (fun t => semToken t.l t.b t.e 0) ++
  o.ctx.nums.map (fun t => semToken t.l t.b t.e 6) ++ o.ctx.strs.map (fun t => semToken t.l t.b t.e 1) ++
  o.ctx.keys.map (fun t => semToken t.l t.b t.e 0) ++ o.sym.toList.map (fun t => semToken t.l t.b t.e 3) ++
  o.ctx.refs.map (fun t => semToken t.l t.b t.e 1)

theorem count_lineSems (os : List LineOut) (x : SemanticToken) :
    (os.flatMap lineSems).count x =
      ((os.flatMap (·.ctx.mcrs)).map (fun t => semToken t.l t.b t.e 4)).count x +
      ((os.filterMap (·.opTok)).map (fun t => semToken t.l t.b t.e 0)).count x +
      ((os.flatMap (·.ctx.nums)).map (fun t => semToken t.l t.b t.e 6)).count x +
      ((os.flatMap (·.ctx.strs)).map (fun t => semToken t.l t.b t.e 1)).count x +
      ((os.flatMap (·.ctx.keys)).map (fun t => semToken t.l t.b t.e 0)).count x +
      ((os.filterMap (·.sym)).map (fun t => semToken t.l t.b t.e 3)).count x +
      ((os.flatMap (·.ctx.refs)).map (fun t => semToken t.l t.b t.e 1)).count x := by
  induction os with
  | nil => rfl
  | cons o os ih =>
    have h1 : (o :: os).filterMap (·.opTok) = o.opTok.toList ++ os.filterMap (·.opTok) := by
      rw [List.filterMap_cons]; cases o.opTok <;> rfl
    have h2 : (o :: os).filterMap (·.sym) = o.sym.toList ++ os.filterMap (·.sym) := by
      rw [List.filterMap_cons]; cases o.sym <;> rfl
    rw [h1, h2]
    simp only [List.flatMap_cons, List.map_append, List.count_append, ih]
    unfold lineSems
    simp only [List.count_append]
    omega

/-- One line alone counts. -/
theorem count_flatMap_at {α β : Type} [DecidableEq β] (f : α → List β) (x : β) (os : List α) (k : Nat) (o : α) (hk : os[k]? = some o)
    (h : ∀ (j : Nat) o', os[j]? = some o' → j ≠ k → x ∉ f o') : (os.flatMap f).count x = (f o).count x := by
  induction os generalizing k with
  | nil => cases hk
  | cons a os ih =>
    rw [List.flatMap_cons, List.count_append]
    cases k with
    | zero =>
      injection hk with hk
      subst hk
      refine (congrArg (_ + ·) (List.count_eq_zero.2 ?_)).trans (Nat.add_zero _)
      intro hx
      obtain ⟨o', ho', hx⟩ := List.mem_flatMap.1 hx
      obtain ⟨j, hj⟩ := List.mem_iff_getElem?.1 ho'
      exact h (j + 1) o' hj (by omega) hx
    | succ k =>
      rw [List.count_eq_zero.2 (h 0 a rfl (by omega)), Nat.zero_add]
      exact ih k hk fun j o' hj hne => h (j + 1) o' hj (by omega)

theorem count_map_at {α β : Type} [DecidableEq α] [DecidableEq β] (f : α → β) (t : α) (x : β) (l : List α)
    (h : ∀ a ∈ l, f a = x ↔ a = t) : (l.map f).count x = l.count t := by
  induction l with
  | nil => rfl
  | cons a l ih =>
    rw [List.map_cons, List.count_cons, List.count_cons, ih fun b hb => h b (List.mem_cons_of_mem _ hb)]
    have := h a (by simp)
    by_cases hat : a = t
    · rw [this.2 hat, hat]; simp
    · have h2 : f a ≠ x := fun hf => hat (this.1 hf)
      simp [hat, h2]

/-- Words and comments are where they are. -/
theorem token_inj {src : Bytes} {t t' : Token} (ht : t ∈ tokens src) (ht' : t' ∈ tokens src) (hne : t.t ≠ .eol) (hne' : t'.t ≠ .eol)
    (hl : t.l = t'.l) (hb : t.b = t'.b) : t = t' := by
  have hp := (readTokens_lines src).2.2
  have hw := shade_width ht hne
  have hw' := shade_width ht' hne'
  rw [List.pairwise_iff_getElem] at hp
  obtain ⟨i, hi1, hi2⟩ := List.getElem_of_mem ht
  obtain ⟨j, hj1, hj2⟩ := List.getElem_of_mem ht'
  rcases Nat.lt_trichotomy i j with hlt | rfl | hgt
  · have := hp i j hi1 hj1 hlt
    rw [hi2, hj2] at this
    have := this hl
    omega
  · rw [hi2] at hj2; exact hj2
  · have := hp j i hj1 hi1 hgt
    rw [hi2, hj2] at this
    have := this hl.symm
    omega

/-- A line and what is collected from it. -/
theorem run_at {addrOk : Bytes → Bool} {s : Carry} {src : Bytes} {os : List LineOut} (h : Run addrOk s (linesOf src) os) {k : Nat} {o : LineOut}
    (ho : os[k]? = some o) :
    (∀ t ty, LineMark o t ty → LineShade (words (tokens src) k) t ty ∧ (lineRecs o).count t = lineTimes (words (tokens src) k) t) ∧
    ∀ y, o.sym = some y → ∃ t, (words (tokens src) k).head? = some t ∧ y.l = t.l ∧ y.b = t.b ∧ y.e = t.e ∧ ∃ n, t.v = n ++ [chColon] ∧ n ≠ [] := by
  have hlt : k < (linesOf src).length := by rw [← h.length]; exact (List.getElem?_eq_some_iff.1 ho).1
  obtain ⟨o', h1, hp, hf⟩ := h.get k (linesOf src)[k] (List.getElem?_eq_getElem hlt)
  rw [ho] at h1
  injection h1 with h1
  subst h1
  obtain ⟨-, hline⟩ := (linesOf_get src k _).1 (List.getElem?_eq_getElem hlt)
  rw [hline] at hp hf
  have hok := lineOk (readTokens_seq src) k
  constructor
  · intro t ty hm
    unfold lineTokens at hp hok
    by_cases hw : words (tokens src) k = []
    · rw [if_pos hw] at hp hok
      rcases hok.shape with ⟨c, h1, h2⟩ | h2
      · rw [h1] at hp
        exact absurd hm (comment_marks h2 hp t ty)
      · cases hc : comments (tokens src) k with
        | nil =>
          rw [hc] at hp
          rw [hw]
          have := line_marks (by simp) .nil hp t ty
          exact ⟨this.1 hm, this.2.2 hm⟩
        | cons c rest =>
          have := (mem_comments.1 (by rw [hc]; simp : c ∈ comments (tokens src) k)).2.2
          rw [(h2 c (by rw [hc]; simp)).1] at this
          cases this
    · rw [if_neg hw] at hp hok
      rcases hok.shape with ⟨c, h1, h2⟩ | h2
      · have := (mem_words.1 (by rw [h1]; simp : c ∈ words (tokens src) k)).2.2
        rw [h2] at this
        cases this
      · have := line_marks h2 (words_nodup src k) hp t ty
        exact ⟨this.1 hm, this.2.2 hm⟩
  · intro y hy
    rw [hf.sym] at hy
    obtain ⟨t, ht, rfl⟩ := Option.map_eq_some_iff.1 hy
    rw [labelHead_eq] at ht
    unfold labelWord at ht
    obtain ⟨h5, h6⟩ := Option.filter_eq_some_iff.1 ht
    obtain ⟨n, hn⟩ := Option.isSome_iff_exists.1 h6
    exact ⟨t, h5, rfl, rfl, rfl, n, labelName_eq.1 hn⟩

end Teal.Lsp

namespace Teal.Props
open Teal Teal.Spec Teal.Lsp Teal.Lsp.Spec P

theorem lineShade_mem {line : List Token} {t : Token} {ty : Nat} (h : LineShade line t ty) : t ∈ line := by
  cases h with
  | pragma _ h _ => exact List.mem_of_mem_head? h
  | version p _ rest h _ _ => rw [h]; simp
  | versionNumber p v _ rest h _ _ _ => rw [h]; simp
  | opcode _ h _ => exact List.mem_of_mem_head? h
  | operand o rest e i _ h _ hi => rw [h]; exact List.mem_cons_of_mem _ (List.mem_of_getElem? hi)

theorem mem_lineSems {o : LineOut} {x : SemanticToken} (h : x ∈ lineSems o) :
    (∃ t ty, LineMark o t ty ∧ x = semToken t.l t.b t.e ty) ∨ ∃ y, o.sym = some y ∧ x = semToken y.l y.b y.e 3 := by
  unfold lineSems at h
  simp only [List.mem_append, List.mem_map, Option.mem_toList] at h
  rcases h with (((((⟨t, h, rfl⟩ | ⟨t, h, rfl⟩) | ⟨t, h, rfl⟩) | ⟨t, h, rfl⟩) | ⟨t, h, rfl⟩) | ⟨t, h, rfl⟩) | ⟨t, h, rfl⟩
  · exact .inl ⟨t, 4, .inl ⟨h, rfl⟩, rfl⟩
  · exact .inl ⟨t, 0, .inr (.inl ⟨h, rfl⟩), rfl⟩
  · exact .inl ⟨t, 6, .inr (.inr (.inl ⟨h, rfl⟩)), rfl⟩
  · exact .inl ⟨t, 1, .inr (.inr (.inr (.inl ⟨h, rfl⟩))), rfl⟩
  · exact .inl ⟨t, 0, .inr (.inr (.inr (.inr (.inl ⟨h, rfl⟩)))), rfl⟩
  · exact .inr ⟨t, h, rfl⟩
  · exact .inl ⟨t, 1, .inr (.inr (.inr (.inr (.inr ⟨h, rfl⟩)))), rfl⟩

theorem lineMark_type {o : LineOut} {t : Token} {ty : Nat} (h : LineMark o t ty) : ty ≠ 2 ∧ ty ≠ 3 := by
  rcases h with ⟨-, rfl⟩ | ⟨-, rfl⟩ | ⟨-, rfl⟩ | ⟨-, rfl⟩ | ⟨-, rfl⟩ | ⟨-, rfl⟩ <;> decide

/-- How often a word is collected. -/
theorem semTokens_count {env : Env} {src : Bytes} {r : ProcessResult} (h : process env src = some r) (x : SemanticToken)
    (hx : x ∈ semTokens r src) : ∃ t ∈ tokens src, ∃ name, Shade (tokens src) t name ∧ Highlights x t name ∧
      (Doubled (tokens src) t → (semTokens r src).count x = 2) ∧ (¬ Doubled (tokens src) t → (semTokens r src).count x = 1) := by
  obtain ⟨os, hr, ha⟩ := process_run h
  have hops : (os.filterMap (·.opTok)).filter (fun t => decide (t.t = .value)) = os.filterMap (·.opTok) := by
    rw [List.filter_eq_self]
    intro t ht
    obtain ⟨o, ho, h1⟩ := List.mem_filterMap.1 ht
    obtain ⟨k, hk⟩ := List.mem_iff_getElem?.1 ho
    have := lineShade_mem ((run_at hr hk).1 t 0 (.inr (.inl ⟨h1, rfl⟩))).1
    exact decide_eq_true (mem_words.1 this).2.2
  have hcount : (semTokens r src).count x = (os.flatMap lineSems).count x +
      (((tokens src).filter fun t => decide (t.t = .comment)).map (fun t => semToken t.l t.b t.e 2)).count x := by
    unfold assemble at ha
    simp only [Option.map_eq_some_iff] at ha
    obtain ⟨lds, -, rfl⟩ := ha
    rw [count_lineSems]
    unfold semTokens tokens
    simp only [List.count_append, hops, List.map_map]
    show _ + _ + _ + _ + _ + _ + List.count x (List.map (fun t : LabelSym => semToken t.l t.b t.e 3) _) + _ = _
    omega
  have hline : ∀ (j : Nat) o', os[j]? = some o' → x ∈ lineSems o' → x.line = j := by
    intro j o' hj hx
    rcases mem_lineSems hx with ⟨t, ty, hm, rfl⟩ | ⟨y, hy, rfl⟩
    · have := (mem_words.1 (lineShade_mem ((run_at hr hj).1 t ty hm).1)).2.1
      show ((t.l : Nat) : Int) = j
      omega
    · obtain ⟨t, h1, h2, -⟩ := (run_at hr hj).2 y hy
      have := (mem_words.1 (List.mem_of_mem_head? h1)).2.1
      show ((y.l : Nat) : Int) = j
      omega
  by_cases hc : x ∈ (((tokens src).filter fun t => decide (t.t = .comment)).map (fun t => semToken t.l t.b t.e 2))
  · obtain ⟨t, ht, rfl⟩ := List.mem_map.1 hc
    obtain ⟨ht, htc⟩ := List.mem_filter.1 ht
    have htc := of_decide_eq_true htc
    have h1 : semToken t.l t.b t.e 2 ∉ os.flatMap lineSems := by
      intro hm
      obtain ⟨o, -, hm⟩ := List.mem_flatMap.1 hm
      rcases mem_lineSems hm with ⟨t', ty, hm, he⟩ | ⟨y, hy, he⟩
      · have := congrArg SemanticToken.type he
        have := (lineMark_type hm).1
        simp only [semToken] at *
        omega
      · have := congrArg SemanticToken.type he
        simp only [semToken] at this
        omega
    have h2 : (((tokens src).filter fun t => decide (t.t = .comment)).map (fun t => semToken t.l t.b t.e 2)).count (semToken t.l t.b t.e 2) = 1 := by
      rw [count_map_at _ t]
      · refine List.count_of_mem_nodup ?_ (List.mem_filter.2 ⟨ht, decide_eq_true htc⟩)
        refine List.Pairwise.imp_of_mem ?_ ((readTokens_lines src).2.2.filter _)
        rintro a b ham hbm hab rfl
        obtain ⟨ham, hac⟩ := List.mem_filter.1 ham
        have := shade_width ham (by rw [of_decide_eq_true hac]; simp)
        have := hab rfl
        omega
      · intro a ham
        obtain ⟨ham, hac⟩ := List.mem_filter.1 ham
        have hac := of_decide_eq_true hac
        constructor
        · intro he
          have e1 := congrArg SemanticToken.line he
          have e2 := congrArg SemanticToken.index he
          simp only [semToken] at e1 e2
          exact token_inj ham ht (by rw [hac]; simp) (by rw [htc]; simp) (by omega) (by omega)
        · rintro rfl; rfl
    refine ⟨t, ht, _, .comment t ht htc, highlights_semToken t 2 _ rfl, ?_, fun _ => ?_⟩
    · rintro ⟨k, w, i, ⟨o, rest, hw, -, -, hi⟩, -⟩
      have := (mem_words.1 (by rw [hw]; exact List.mem_cons_of_mem _ (List.mem_of_getElem? hi) : t ∈ words (tokens src) k)).2.2
      rw [htc] at this
      cases this
    · rw [hcount, h2, List.count_eq_zero.2 h1]
  · rw [List.count_eq_zero.2 hc, Nat.add_zero] at hcount
    have hx' : x ∈ os.flatMap lineSems := by
      have := List.count_pos_iff.2 hx
      rw [hcount] at this
      exact List.count_pos_iff.1 this
    obtain ⟨o, ho, hxo⟩ := List.mem_flatMap.1 hx'
    obtain ⟨k, hk⟩ := List.mem_iff_getElem?.1 ho
    have hxk := hline k o hk hxo
    rw [count_flatMap_at lineSems x os k o hk (fun j o' hj hne hxj => hne (by have := hline j o' hj hxj; omega))] at hcount
    rcases mem_lineSems hxo with ⟨t, ty, hm, hxe⟩ | ⟨y, hy, hxe⟩
    · obtain ⟨hsh, htimes⟩ := (run_at hr hk).1 t ty hm
      obtain ⟨htm, name, hname, hshade⟩ := lineShade_shade hsh
      have hcat : ∀ (l : List Token) (c : Nat), (∀ a ∈ l, LineMark o a c) →
          (l.map (fun t => semToken t.l t.b t.e c)).count x = l.count t := by
        intro l c hl
        refine count_map_at _ t x l fun a ha => ?_
        obtain ⟨hsa, -⟩ := (run_at hr hk).1 a c (hl a ha)
        obtain ⟨ham, name', hname', hshade'⟩ := lineShade_shade hsa
        constructor
        · intro he
          rw [hxe] at he
          have e1 := congrArg SemanticToken.line he
          have e2 := congrArg SemanticToken.index he
          simp only [semToken] at e1 e2
          have hv := (mem_words.1 (lineShade_mem hsa)).2.2
          have hv' := (mem_words.1 (lineShade_mem hsh)).2.2
          exact token_inj ham htm (by rw [hv]; simp) (by rw [hv']; simp) (by omega) (by omega)
        · rintro rfl
          obtain rfl := shade_unique hshade hshade'
          have hn : legend.Nodup := by decide
          have : c = ty := (List.getElem?_inj (List.getElem?_eq_some_iff.1 hname').1 hn).1 (hname'.trans hname.symm)
          rw [this, hxe]
      have hsym : (o.sym.toList.map (fun t => semToken t.l t.b t.e 3)).count x = 0 := by
        rw [List.count_eq_zero]
        intro hx3
        obtain ⟨y, -, he⟩ := List.mem_map.1 hx3
        rw [hxe] at he
        have := congrArg SemanticToken.type he
        have := (lineMark_type hm).2
        simp only [semToken] at *
        omega
      have htot : (lineSems o).count x = (lineRecs o).count t := by
        unfold lineSems lineRecs LineCtx.recs
        simp only [List.count_append]
        rw [hsym, show (4 : Int) = ((4 : Nat) : Int) from rfl, show (0 : Int) = ((0 : Nat) : Int) from rfl, show (6 : Int) = ((6 : Nat) : Int) from rfl,
          show (1 : Int) = ((1 : Nat) : Int) from rfl,
          hcat _ 4 (fun a ha => .inl ⟨ha, rfl⟩), hcat _ 0 (fun a ha => .inr (.inl ⟨Option.mem_toList.1 ha, rfl⟩)),
          hcat _ 6 (fun a ha => .inr (.inr (.inl ⟨ha, rfl⟩))), hcat _ 1 (fun a ha => .inr (.inr (.inr (.inl ⟨ha, rfl⟩)))),
          hcat _ 0 (fun a ha => .inr (.inr (.inr (.inr (.inl ⟨ha, rfl⟩))))), hcat _ 1 (fun a ha => .inr (.inr (.inr (.inr (.inr ⟨ha, rfl⟩)))))]
        omega
      rw [hcount, htot, htimes]
      have hlk := (mem_words.1 (lineShade_mem hsh)).2.1
      refine ⟨t, htm, name, hshade, by rw [hxe]; exact highlights_semToken t ty name hname, ?_, ?_⟩
      · rintro ⟨k', w, i, ⟨p, rest, hw, rfl, -, hi⟩, hww⟩
        have hrest := List.mem_of_getElem? hi
        have hk' := (mem_words.1 (by rw [hw]; exact List.mem_cons_of_mem _ hrest : t ∈ words (tokens src) k')).2.1
        obtain rfl : k = k' := by omega
        unfold lineTimes
        rw [hw]
        exact if_pos ⟨hww, hrest⟩
      · intro hd
        cases hw : words (tokens src) k with
        | nil => rfl
        | cons w rest =>
          refine if_neg ?_
          rintro ⟨hww, hrest⟩
          obtain ⟨i, hi⟩ := List.mem_iff_getElem?.1 hrest
          refine hd ⟨k, w.v, i, ⟨w, rest, hw, rfl, ?_, hi⟩, hww⟩
          rcases hww with h | h <;> rw [h] <;> exact (known_op _).1 (by decide +kernel)
    · obtain ⟨t, h1, h2, h3, h4, n, h5, h6⟩ := (run_at hr hk).2 y hy
      have htw := List.mem_of_mem_head? h1
      have htk := mem_words.1 htw
      have hone : (lineSems o).count x = 1 := by
        have hz : ∀ (l : List Token) (c : Int), c ≠ 3 → (l.map (fun t => semToken t.l t.b t.e c)).count x = 0 := by
          intro l c hc
          rw [List.count_eq_zero]
          intro hm
          obtain ⟨a, -, he⟩ := List.mem_map.1 hm
          rw [hxe] at he
          exact hc (congrArg SemanticToken.type he)
        unfold lineSems
        simp only [List.count_append]
        rw [hz _ 4 (by decide), hz _ 0 (by decide), hz _ 6 (by decide), hz _ 1 (by decide), hz _ 0 (by decide), hz _ 1 (by decide), hy, hxe]
        simp
      refine ⟨t, htk.1, _, .label k t n h1 h5 h6, ?_, ?_, fun _ => by rw [hcount, hone]⟩
      · rw [hxe, h2, h3, h4]; exact highlights_semToken t 3 _ rfl
      · rintro ⟨k', w, i, ⟨p, rest, hw, rfl, -, hi⟩, -⟩
        have hrest := List.mem_of_getElem? hi
        have hk' := (mem_words.1 (by rw [hw]; exact List.mem_cons_of_mem _ hrest : t ∈ words (tokens src) k')).2.1
        obtain rfl : k = k' := by omega
        have hnd := words_nodup src k
        rw [hw] at hnd h1
        injection h1 with h1
        subst h1
        exact absurd hrest (List.nodup_cons.1 hnd).1

/-- **C88** (how often.)  In the highlighting of a text each word and each comment appears once; except for
the numbers of `intcblock` and `pushints`, each of which appears twice. -/
theorem C88_exact (h : Host) (hsort : SortsBy SemanticToken.less h.sort) (ms : List (Choice × Msg)) (u src : Bytes) (a : Result)
    (hlen : src.length < 2 ^ 32) (ha : Answered h ms u src .semanticTokens a) :
    ∃ data xs, a = .semanticTokens data ∧ semDecode 0 0 data = some xs ∧
      ∀ x ∈ xs, ∃ t ∈ tokens src, ∃ name, Shade (tokens src) t name ∧ Highlights x t name ∧
        (Doubled (tokens src) t → xs.count x = 2) ∧ (¬ Doubled (tokens src) t → xs.count x = 1) := by
  obtain ⟨ch, mp, r, hr, hans⟩ := answered ha
  injection hans with hans
  subst hans
  obtain ⟨err, hlex, -⟩ := readTokens_lexes src
  obtain ⟨-, xs, h1, h2, h3⟩ := C09_encode_decode h.sort hsort (semTokens r src) (by
    intro x hx
    obtain ⟨t, ht, name, -, e1, e2, e3, e4, e5, e6⟩ := semTokens_sound hr x hx
    have hb := lexes_bound hlex t ht
    have h9 : x.type.toNat < 9 := (List.getElem?_eq_some_iff.1 e5).1
    have : (2 : Nat) ^ 32 = 4294967296 := by decide
    unfold Fits
    omega)
  refine ⟨_, xs, rfl, h1, fun x hx => ?_⟩
  rw [h2.count_eq]
  exact semTokens_count hr x (h2.mem_iff.1 hx)

/-- Both kinds of words occur. -/
example : Answered sampleHost (openSession b!"pushints 1\nint 2") b!"u" b!"pushints 1\nint 2" .semanticTokens
      (.semanticTokens [0, 0, 8, 0, 0, 0, 9, 1, 6, 0, 0, 0, 1, 6, 0, 1, 0, 3, 0, 0, 0, 4, 1, 6, 0]) ∧
    SortsBy SemanticToken.less sampleHost.sort ∧
    Doubled (tokens b!"pushints 1\nint 2") ⟨b!"1", 0, 9, 10, .value⟩ :=
  ⟨open_answered _ _ _ (by decide +kernel), sampleHost_sorts, 0, b!"pushints", 0, ⟨⟨b!"pushints", 0, 0, 8, .value⟩, [⟨b!"1", 0, 9, 10, .value⟩], by decide +kernel, rfl,
    (known_op _).1 (by decide +kernel), rfl⟩, .inr rfl⟩

end Teal.Props
