import Verif.Lemmas.Display

/-!
# How the display changes
-/

namespace Teal
open Teal.Spec Teal.Dap

theorem displays_stack {v : Vm} {b : VmBranch} {name t : Bytes} :
    Displays v b .stack name t ↔ ∃ (n : Nat) (x : VmValue), b.stack.reverse[n]? = some x ∧ name = formatUint n ∧ t = x.text := by
  constructor
  · rintro ⟨n, x, h, h1, h2⟩
    cases h with
    | stack hx => exact ⟨n, _, hx, h1, h2⟩
  · rintro ⟨n, x, h, h1, h2⟩
    exact ⟨n, _, .stack h, h1, h2⟩

theorem displays_scratch {v : Vm} {b : VmBranch} {name t : Bytes} :
    Displays v b .scratch name t ↔
      ∃ (n : Nat) (x : VmValue), v.scratch[n]? = some x ∧ x.t ≠ .none ∧ name = formatUint n ∧ t = x.text := by
  constructor
  · rintro ⟨n, x, h, h1, h2⟩
    cases h with
    | scratch hx hn => exact ⟨n, _, hx, hn, h1, h2⟩
  · rintro ⟨n, x, h, hn, h1, h2⟩
    exact ⟨n, _, .scratch h hn, h1, h2⟩

/-- The display of the stack. -/
theorem stackShown_iff {v : Vm} {b : VmBranch} {ts : List Bytes} : StackShown v b ts ↔ ts = b.stack.map VmValue.text := by
  have key : ∀ (n : Nat) (t : Bytes), (∃ name, DecimalOf n name ∧ Displays v b .stack name t) ↔
      (b.stack.map VmValue.text).reverse[n]? = some t := by
    intro n t
    rw [← List.map_reverse, List.getElem?_map, Option.map_eq_some_iff]
    constructor
    · rintro ⟨name, hd, h⟩
      obtain ⟨n', x, h1, rfl, h2⟩ := displays_stack.1 h
      rw [decimal_eq hd (formatUint_decimal n')]
      exact ⟨x, h1, h2.symm⟩
    · rintro ⟨x, h1, h2⟩
      exact ⟨_, formatUint_decimal n, displays_stack.2 ⟨n, x, h1, rfl, h2.symm⟩⟩
  constructor
  · intro h
    apply List.reverse_inj.1
    apply List.ext_getElem?
    intro n
    apply Option.ext
    intro t
    rw [← key, h]
  · rintro rfl
    exact key

/-- The display of a slot. -/
def slotText (s : List VmValue) (n : Nat) : Option Bytes := s[n]?.bind fun x => if x.t = .none then none else some x.text

theorem slotsShown_iff {v : Vm} {b : VmBranch} {f : Nat → Option Bytes} : SlotsShown v b f ↔ f = slotText v.scratch := by
  have key : ∀ (n : Nat) (t : Bytes), (∃ name, DecimalOf n name ∧ Displays v b .scratch name t) ↔ slotText v.scratch n = some t := by
    intro n t
    unfold slotText
    rw [Option.bind_eq_some_iff]
    constructor
    · rintro ⟨name, hd, h⟩
      obtain ⟨n', x, h1, hn, rfl, h2⟩ := displays_scratch.1 h
      rw [decimal_eq hd (formatUint_decimal n')]
      exact ⟨x, h1, by rw [if_neg hn, h2]⟩
    · rintro ⟨x, h1, h2⟩
      by_cases hn : x.t = .none
      · rw [if_pos hn] at h2; cases h2
      · rw [if_neg hn] at h2
        exact ⟨_, formatUint_decimal n, displays_scratch.2 ⟨n, x, h1, hn, rfl, (Option.some.inj h2).symm⟩⟩
  constructor
  · intro h
    funext n
    apply Option.ext
    intro t
    rw [← key, h]
  · rintro rfl
    exact key

theorem slotText_set {s : List VmValue} {n : Nat} {x : VmValue} (hn : n < s.length) (hx : x.t ≠ .none) :
    slotText (s.set n x) = fun i => if i = n then some x.text else slotText s i := by
  funext i
  unfold slotText
  rw [List.getElem?_set]
  by_cases h : n = i
  · subst h; simp [hn, hx]
  · rw [if_neg h, if_neg (fun e => h e.symm)]

theorem rearranges_lift {α β : Type} {g : α → β} {o : Op} {s : List α} {ts : List β} (h : Rearranges o (s.map g) ts) :
    ∃ s', Rearranges o s s' ∧ ts = s'.map g := by
  generalize hm : s.map g = us at h
  cases h with
  | swap a b t =>
    obtain ⟨x, s, rfl, rfl, hm_a⟩ := List.map_eq_cons_iff.1 hm
    obtain ⟨y, s, rfl, rfl, rfl⟩ := List.map_eq_cons_iff.1 hm_a
    exact ⟨_, .swap _ _ _, rfl⟩
  | dup a t =>
    obtain ⟨x, s, rfl, rfl, rfl⟩ := List.map_eq_cons_iff.1 hm
    exact ⟨_, .dup _ _, rfl⟩
  | dup2 a b t =>
    obtain ⟨x, s, rfl, rfl, hm_a⟩ := List.map_eq_cons_iff.1 hm
    obtain ⟨y, s, rfl, rfl, rfl⟩ := List.map_eq_cons_iff.1 hm_a
    exact ⟨_, .dup2 _ _ _, rfl⟩
  | dig n a t ha =>
    subst hm
    rw [List.getElem?_map, Option.map_eq_some_iff] at ha
    obtain ⟨x, hx, rfl⟩ := ha
    exact ⟨_, .dig _ _ _ hx, rfl⟩
  | cover n a xs t hn =>
    obtain ⟨x, s, rfl, rfl, hm_a⟩ := List.map_eq_cons_iff.1 hm
    obtain ⟨s1, s2, rfl, rfl, rfl⟩ := List.map_eq_append_iff.1 hm_a
    exact ⟨_, .cover _ _ _ _ (by simpa using hn), by simp⟩
  | uncover n a xs t hn =>
    obtain ⟨s1, s2, rfl, rfl, hm_a⟩ := List.map_eq_append_iff.1 hm
    obtain ⟨x, s, rfl, rfl, rfl⟩ := List.map_eq_cons_iff.1 hm_a
    exact ⟨_, .uncover _ _ _ _ (by simpa using hn), by simp⟩
  | bury n a xs y t hn =>
    obtain ⟨x, s, rfl, rfl, hm_a⟩ := List.map_eq_cons_iff.1 hm
    obtain ⟨s1, s2, rfl, rfl, hm_aa⟩ := List.map_eq_append_iff.1 hm_a
    obtain ⟨x', s, rfl, rfl, rfl⟩ := List.map_eq_cons_iff.1 hm_aa
    exact ⟨_, .bury _ _ _ _ _ (by simpa using hn), by simp⟩
  | popn n xs t hn =>
    obtain ⟨s1, s2, rfl, rfl, rfl⟩ := List.map_eq_append_iff.1 hm
    exact ⟨_, .popn _ _ _ (by simpa using hn), rfl⟩
  | dupn n a t =>
    obtain ⟨x, s, rfl, rfl, rfl⟩ := List.map_eq_cons_iff.1 hm
    exact ⟨_, .dupn _ _ _, by simp⟩

theorem rearranges_exec {v : Vm} {o : Op} {m m' : Mach} {s : List VmValue} (h : v.executeOp o m = .ok () m')
    (hr : Rearranges o m.br.stack s) (h2 : o ≠ .plain .dup2)
    (hbury : ∀ n, o = .u8 .bury n → m.br.stack.length = 2 * n + 1)
    (hdig : ∀ n, o = .u8 .dig n → m.br.stack.length ≤ 256) : m'.br.stack = s ∧ m'.scratch = m.scratch := by
  generalize hst : m.br.stack = st at hr
  cases hr with
  | swap a b t => rw [ok_inj (swap_ok hst) h]; exact ⟨rfl, rfl⟩
  | dup a t => rw [ok_inj (dup_ok hst) h]; exact ⟨rfl, rfl⟩
  | dup2 a b t => exact (h2 rfl).elim
  | dig n a t ha =>
    rw [ok_inj (dig_ok (by rw [hst]; exact ha) (hdig n rfl)) h]
    exact ⟨by rw [← hst]; rfl, rfl⟩
  | cover n a xs t hn =>
    rw [ok_inj (cover_ok hst (by simp [hn])) h]
    subst hn
    refine ⟨?_, rfl⟩
    show List.take _ _ ++ _ :: List.drop _ _ = _
    simp
  | uncover n a xs t hn =>
    rw [ok_inj (uncover_ok (a := a) (by rw [hst, ← hn]; simp)) h]
    subst hn
    refine ⟨?_, rfl⟩
    show _ :: (List.take _ m.br.stack ++ List.drop _ m.br.stack) = _
    rw [hst]
    simp
  | bury n a xs x t hn =>
    have hl := hbury n rfl
    rw [hst] at hl
    simp only [List.length_cons, List.length_append] at hl
    rw [ok_inj (bury_ok hst (by simp; omega)) h]
    refine ⟨?_, rfl⟩
    show ((xs ++ x :: t).reverse.set n a).reverse = xs ++ a :: t
    have : n = t.reverse.length := by rw [List.length_reverse]; omega
    rw [List.reverse_append, List.reverse_cons, List.append_assoc, this]
    simp
  | popn n xs _ hn =>
    rw [ok_inj (popn_ok (by rw [hst, ← hn]; simp)) h]
    subst hn
    refine ⟨?_, rfl⟩
    show List.drop _ m.br.stack = _
    rw [hst]; simp
  | dupn n a t =>
    by_cases hn : n < 255
    · rw [ok_inj (dupn_ok hst hn) h]; exact ⟨rfl, rfl⟩
    · have h : U8Op.execute n .dupn m = .ok () m' := h
      unfold U8Op.execute at h
      dsimp only at h
      obtain ⟨b, m1, h1, h2⟩ := X.bind_ok h
      rw [if_pos (by omega)] at h2
      cases h2

theorem vmName_eq (t : StackType) : t.vmName = typeName t := by cases t <;> rfl

theorem callText_eq (n : Bytes) (as : List Bytes) : callText n as = called n as := rfl

/-- What an executed instruction does to the texts. -/
theorem exec_redisplay {v : Vm} {o : Op} {m m' : Mach} (hm : AllProper m) (h : v.executeOp o m = .ok () m')
    {ts : List Bytes} {f' : Nat → Option Bytes}
    (hr : Redisplays o (m.br.stack.map VmValue.text) (slotText m.scratch) ts f') :
    ts = m'.br.stack.map VmValue.text ∧ f' = slotText m'.scratch := by
  generalize hts : m.br.stack.map VmValue.text = us at hr
  generalize hf : slotText m.scratch = f at hr
  cases hr with
  | constant hc =>
    subst hts hf
    cases hc with
    | int hd => cases h; rw [decimal_spelling hd (formatUint_decimal _)]; exact ⟨rfl, rfl⟩
    | byte b => cases h; refine ⟨?_, rfl⟩; rw [← b64Encode_eq]; rfl
    | pushbytes b => cases h; refine ⟨?_, rfl⟩; rw [← b64Encode_eq]; rfl
    | method s => cases h; exact ⟨rfl, rfl⟩
  | pushbytess bs =>
    subst hts hf
    have h : (X.pushAll (bs.map fun b => (⟨.bytes, .bytes b⟩ : VmValue)) >>= fun _ => X.incLine) m = .ok () m' := h
    rw [X.ok_bind (pushAll_ok _ _)] at h
    cases h
    refine ⟨?_, rfl⟩
    show _ = (_ ++ m.br.stack).map _
    rw [List.map_append, ← List.map_reverse, List.map_map]
    congr 1
    apply List.map_congr_left
    intro b _
    rw [← b64Encode_eq]; rfl
  | pushint n => subst hts hf; cases h; exact ⟨rfl, rfl⟩
  | @load n t _ _ hn =>
    subst hts hf
    obtain ⟨x_a, m1, h1, h2⟩ := X.bind_ok (x := X.scratchAt n) h
    unfold X.scratchAt at h1
    unfold slotText at hn
    cases hs : m.scratch[n]? with
    | none => rw [hs] at h1; cases h1
    | some x' =>
      rw [hs] at h1 hn; cases h1; cases h2
      refine ⟨?_, rfl⟩
      dsimp only [Option.bind] at hn
      split at hn
      · cases hn
      · cases hn; rfl
  | @loadUnset n _ _ hn =>
    subst hts hf
    obtain ⟨x_a, m1, h1, h2⟩ := X.bind_ok (x := X.scratchAt n) h
    unfold X.scratchAt at h1
    unfold slotText at hn
    cases hs : m.scratch[n]? with
    | none => rw [hs] at h1; cases h1
    | some x' =>
      have hp := hm.2 x' (List.mem_of_getElem? hs)
      rw [hs] at h1 hn; cases h1; cases h2
      refine ⟨?_, rfl⟩
      rcases hp with hp | rfl
      · dsimp only [Option.bind] at hn
        rw [if_neg hp.2] at hn; cases hn
      · rfl
  | loads =>
    obtain ⟨x, s, h0, rfl, rfl⟩ := List.map_eq_cons_iff.1 hts
    subst hf
    obtain ⟨-, h2, h3⟩ := LeavesReal.simple [.uint64] [.any] m m' h
    rw [h2, h3, h0]; exact ⟨rfl, rfl⟩
  | @store n _ _ _ =>
    obtain ⟨x, s, h0, rfl, rfl⟩ := List.map_eq_cons_iff.1 hts
    subst hf
    obtain ⟨y, m1, h1, h2⟩ := X.bind_ok (x := X.pop .any) h
    obtain ⟨e1, e2, -⟩ := pop_inv h1
    rw [h0] at e1; cases e1
    obtain ⟨_, m2, h3, h4⟩ := X.bind_ok (x := X.store ⟨.uint64, .uint n⟩ x) h2
    unfold X.store at h3
    dsimp only at h3
    split at h3
    · rename_i hn
      cases h3; cases h4
      refine ⟨rfl, ?_⟩
      have hx : x.t ≠ .none := (hm.1 x (by rw [h0]; simp)).2
      have : m1.scratch = m.scratch := by rw [e2]; rfl
      rw [← this]
      exact (slotText_set hn hx).symm
    · cases h3
  | @stores n t d _ _ hd =>
    obtain ⟨x, s, h0, rfl, hts_a⟩ := List.map_eq_cons_iff.1 hts
    obtain ⟨i, s, rfl, hi, rfl⟩ := List.map_eq_cons_iff.1 hts_a
    subst hf
    obtain ⟨y, m1, h1, h2⟩ := X.bind_ok (x := X.pop .any) h
    obtain ⟨e1, e2, -⟩ := pop_inv h1
    rw [h0] at e1
    obtain ⟨rfl, e1_a⟩ := List.cons.inj e1
    obtain ⟨j, m2, h3, h4⟩ := X.bind_ok (x := X.pop .uint64) h2
    obtain ⟨g1, g2, -⟩ := pop_inv h3
    rw [← e1_a] at g1
    obtain ⟨rfl, g1_a⟩ := List.cons.inj g1
    have hp := hm.1 i (by rw [h0]; simp)
    have hsrc : i.src = .uint n := by
      obtain ⟨e3, e4⟩ := value_some (t' := .uint64) hi
      have hp := hp.1
      rw [e3] at hp
      cases hs : i.src with
      | uint k =>
        rw [hs] at e4; cases e4
        rw [decimal_eq hd (formatUint_decimal k)]
      | none => rw [hs] at e4; cases e4
      | bytes _ => rw [hs] at hp; cases hp
      | sig _ => rw [hs] at hp; cases hp
      | sha256 _ _ => rw [hs] at hp; cases hp.1
      | val _ _ => rw [hs] at hp; cases hp.1
      | ed25519verify => rw [hs] at e4; cases e4; exact (decimal_head hd).elim
      | ecdsaVerify => rw [hs] at e4; cases e4; exact (decimal_head hd).elim
    obtain ⟨_, m3, h5, h6⟩ := X.bind_ok (x := X.store i x) h4
    unfold X.store at h5
    rw [hsrc] at h5
    dsimp only at h5
    split at h5
    · rename_i hn
      cases h5; cases h6
      refine ⟨by show _ = m2.br.stack.map _; rw [← g1_a], ?_⟩
      have hx : x.t ≠ .none := (hm.1 x (by rw [h0]; simp)).2
      have : m2.scratch = m.scratch := by rw [g2, e2]; rfl
      rw [← this]
      exact (slotText_set hn hx).symm
    · cases h5
  | rearranges hr h2 hb hd =>
    subst hts hf
    obtain ⟨s, h3, rfl⟩ := rearranges_lift hr
    obtain ⟨h4, h5⟩ := rearranges_exec h h3 h2 (by simpa using hb) (by simpa using hd)
    rw [h4, h5]; exact ⟨rfl, rfl⟩
  | sha256 =>
    obtain ⟨x, s, h0, rfl, rfl⟩ := List.map_eq_cons_iff.1 hts
    subst hf
    obtain ⟨y, m1, h1, h2⟩ := X.bind_ok (x := X.pop .bytes) h
    obtain ⟨e1, e2, -⟩ := pop_inv h1
    rw [h0] at e1
    obtain ⟨rfl, e1_a⟩ := List.cons.inj e1
    cases h2
    refine ⟨?_, by rw [e2]; rfl⟩
    show _ = (_ :: m1.br.stack).map _
    rw [← e1_a]; rfl
  | ed25519verify =>
    obtain ⟨x1, s, h0, rfl, hts_a⟩ := List.map_eq_cons_iff.1 hts
    obtain ⟨x2, s, rfl, rfl, hts_aa⟩ := List.map_eq_cons_iff.1 hts_a
    obtain ⟨x3, s, rfl, rfl, rfl⟩ := List.map_eq_cons_iff.1 hts_aa
    subst hf
    obtain ⟨y, m1, h1, h2⟩ := X.bind_ok (x := X.pop .bytes) h
    obtain ⟨e1, e2, -⟩ := pop_inv h1
    rw [h0] at e1
    obtain ⟨rfl, e1_a⟩ := List.cons.inj e1
    obtain ⟨y, m2, h1, h2_a⟩ := X.bind_ok (x := X.pop .bytes) h2
    obtain ⟨f1, f2, -⟩ := pop_inv h1
    rw [← e1_a] at f1
    obtain ⟨rfl, f1_a⟩ := List.cons.inj f1
    obtain ⟨y, m3, h1, h2_aa⟩ := X.bind_ok (x := X.pop .bytes) h2_a
    obtain ⟨g1, g2, -⟩ := pop_inv h1
    rw [← f1_a] at g1
    obtain ⟨rfl, g1_a⟩ := List.cons.inj g1
    cases h2_aa
    refine ⟨?_, by rw [g2, f2, e2]; rfl⟩
    show _ = (_ :: m3.br.stack).map _
    rw [← g1_a]; rfl
  | ecdsaVerify c =>
    obtain ⟨x1, s, h0, rfl, hts_a⟩ := List.map_eq_cons_iff.1 hts
    obtain ⟨x2, s, rfl, rfl, hts_aa⟩ := List.map_eq_cons_iff.1 hts_a
    obtain ⟨x3, s, rfl, rfl, hts_aaa⟩ := List.map_eq_cons_iff.1 hts_aa
    obtain ⟨x4, s, rfl, rfl, hts_aaaa⟩ := List.map_eq_cons_iff.1 hts_aaa
    obtain ⟨x5, s, rfl, rfl, rfl⟩ := List.map_eq_cons_iff.1 hts_aaaa
    subst hf
    obtain ⟨y, m1, h1, h2⟩ := X.bind_ok (x := X.pop .bytes) h
    obtain ⟨e1, e2, -⟩ := pop_inv h1
    rw [h0] at e1
    obtain ⟨rfl, e1_a⟩ := List.cons.inj e1
    obtain ⟨y, m2, h1, h2_a⟩ := X.bind_ok (x := X.pop .bytes) h2
    obtain ⟨f1, f2, -⟩ := pop_inv h1
    rw [← e1_a] at f1
    obtain ⟨rfl, f1_a⟩ := List.cons.inj f1
    obtain ⟨y, m3, h1, h2_aa⟩ := X.bind_ok (x := X.pop .bytes) h2_a
    obtain ⟨g1, g2, -⟩ := pop_inv h1
    rw [← f1_a] at g1
    obtain ⟨rfl, g1_a⟩ := List.cons.inj g1
    obtain ⟨y, m4, h1, h2_aaa⟩ := X.bind_ok (x := X.pop .bytes) h2_aa
    obtain ⟨i1, i2, -⟩ := pop_inv h1
    rw [← g1_a] at i1
    obtain ⟨rfl, i1_a⟩ := List.cons.inj i1
    obtain ⟨y, m5, h1, h2_aaaa⟩ := X.bind_ok (x := X.pop .bytes) h2_aaa
    obtain ⟨j1, j2, -⟩ := pop_inv h1
    rw [← i1_a] at j1
    obtain ⟨rfl, j1_a⟩ := List.cons.inj j1
    cases h2_aaaa
    refine ⟨?_, by rw [j2, i2, g2, f2, e2]; rfl⟩
    show _ = (_ :: m5.br.stack).map _
    rw [← j1_a]; rfl
  | callsub t => subst hts hf; cases h; exact ⟨rfl, rfl⟩
  | proto a n =>
    subst hts hf
    obtain ⟨_, m1, h1, h2⟩ := X.bind_ok (x := X.prepare a n) h
    unfold X.prepare at h1
    split at h1
    · cases h1
    · cases h1; cases h2; exact ⟨rfl, rfl⟩
  | table he ho hi =>
    subst hts hf
    obtain ⟨-, h2, h3⟩ := table_leaves v he ho hi m m' h
    rw [h2, h3]
    refine ⟨?_, rfl⟩
    rw [List.map_append, List.map_drop, ← List.map_reverse, List.map_map]
    congr 1

end Teal
