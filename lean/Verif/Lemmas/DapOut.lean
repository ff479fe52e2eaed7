import Verif.Lemmas.DapWire

/-!
# Lemmas: what the debug adapter sends
-/

namespace Teal.DapSpec

open Teal Teal.Spec Teal.JsonSpec Teal.WireSpec Teal.Dap Teal.DapWire
open Teal.Wire (num nonempty)

theorem sees_source (s : Source) : IsSource s (sourceOut s) := by
  refine ⟨_, rfl, ?_⟩
  unfold nonempty
  split <;> split
  · rename_i h1 h2
    exact ⟨.inl ⟨h1, .inl (lacks_of (by decide) rfl)⟩, .inl ⟨h2, .inl (lacks_of (by decide) rfl)⟩⟩
  · rename_i h1 h2
    exact ⟨.inl ⟨h1, .inl (lacks_of (by decide) rfl)⟩, .inr (has_find (by decide) rfl rfl)⟩
  · rename_i h1 h2
    exact ⟨.inr (has_find (by decide) rfl rfl), .inl ⟨h2, .inl (lacks_of (by decide) rfl)⟩⟩
  · exact ⟨.inr (has_find (by decide) rfl rfl), .inr (has_find (by decide) rfl rfl)⟩

theorem sees_bp (b : Bp) : SeesBp b (bpOut b) :=
  ⟨_, rfl, has_find (by decide) rfl (num_integer _), has_find (by decide) rfl rfl, has_find (by decide) rfl (sees_source _),
    has_find (by decide) rfl (num_integer _)⟩

theorem sees_thread (n : Nat) : SeesThread n (threadOut n) :=
  ⟨_, rfl, has_find (by decide) rfl (num_integer _), has_find (by decide) rfl ⟨_, formatUint_decimal n, rfl⟩⟩

theorem sees_variable (v : Nat × Shown) : SeesVariable (v.2.label v.1, v.2.text) (variableOut v) :=
  ⟨_, rfl, has_find (by decide) rfl rfl, has_find (by decide) rfl rfl, has_find (by decide) rfl (num_integer 0)⟩

theorem sees_scope (s : Scope) : SeesScope s (scopeOut s) := by
  obtain ⟨name, ref, i⟩ := s
  cases i with
  | none => exact ⟨_, rfl, has_find (by decide) rfl rfl, has_find (by decide) rfl (num_integer _), has_find (by decide) rfl rfl, lacks_of (by decide) rfl⟩
  | some n =>
    exact ⟨_, rfl, has_find (by decide) rfl rfl, has_find (by decide) rfl (num_integer _), has_find (by decide) rfl rfl,
      has_find (by decide) rfl (num_integer n)⟩

theorem sees_frame (f : Dap.Frame) : SeesFrame f (frameOut f) :=
  ⟨_, rfl, has_find (by decide) rfl (num_integer _), has_find (by decide) rfl rfl, has_find (by decide) rfl (sees_source _),
    has_find (by decide) rfl (num_integer _), has_find (by decide) rfl (num_integer _)⟩

theorem reason_same (r : Reason) : reasonOut r = reason r := by cases r <;> rfl

/-- The members in front of the body. -/
def front (name : Bytes) (s : Sent) : List (Bytes × Json) :=
  match s.response with
  | some (seq, ok) => [(b!"seq", num s.seq), (b!"type", .str b!"response"), (b!"request_seq", num seq), (b!"success", .bool ok), (b!"command", .str name)]
  | none => [(b!"seq", num s.seq), (b!"type", .str b!"event"), (b!"event", .str (eventName s.body))]

theorem sees_stopped (t : Bytes) (r : Reason) (th : Option Nat) (hs : List Nat) :
    ∃ j, bodyOut t (.stopped r th hs) = some j ∧ IsObj (fun bs => Has bs b!"reason" (IsStr (reason r)) ∧
      (if r = .exception then Has bs b!"description" Str else Lacks bs b!"description") ∧
      (match th with
        | some t => Has bs b!"threadId" (Integer t)
        | none => Lacks bs b!"threadId") ∧ Has bs b!"allThreadsStopped" (Yes true) ∧
      if hs = [] then Lacks bs b!"hitBreakpointIds" else Has bs b!"hitBreakpointIds" (IsArr (hs.map fun (n : Nat) => Integer n))) j := by
  refine ⟨_, rfl, _, rfl, ?_⟩
  rw [reason_same]
  have hn : nonempty b!"description" (b!"Error: " ++ t) = [(b!"description", .str (b!"Error: " ++ t))] := by unfold nonempty; rw [if_neg (by simp)]
  rw [hn]
  have ha := isArr_map (P := fun (n : Nat) => Integer n) (f := fun (n : Nat) => num n) hs fun n _ => num_integer n
  by_cases h1 : r = .exception <;> by_cases h2 : hs = [] <;> cases th <;> simp only [h1, h2, if_true, if_false, reduceCtorEq] <;>
  · refine ⟨has_find (by decide) rfl rfl, ?_, ?_, has_find (by decide) rfl rfl, ?_⟩
    · first | exact lacks_of (by decide) rfl | exact has_find (by decide) rfl ⟨_, rfl⟩
    · first | exact lacks_of (by decide) rfl | exact has_find (by decide) rfl (num_integer _)
    · first | exact lacks_of (by decide) rfl | exact has_find (by decide) rfl ha

/-- The body of a message, behind members that are called differently. -/
theorem sees_body {pre : List (Bytes × Json)} (hp : Lacks pre b!"body") (t : Bytes) (c : Option Bytes) (p : Payload)
    (h : p = .empty → ∀ x, c = some x → x ∉ demanding) :
    SeesBody c p (pre ++ match bodyOut t p with
      | some b => [(b!"body", b)]
      | none => []) := by
  have put : ∀ {P : Json → Prop} {j : Json}, P j → Has (pre ++ [(b!"body", j)]) b!"body" P := fun {P j} hj =>
    ⟨pre, j, [], rfl, hp, (fun m hm => by cases hm), hj⟩
  cases p with
  | empty => exact ⟨by rw [← List.append_nil pre] at hp; exact hp, h rfl⟩
  | initialized => rw [← List.append_nil pre] at hp; exact hp
  | capabilities => exact put ⟨_, rfl, has_find (by decide) rfl rfl, by simp⟩
  | breakpoints bs => exact put ⟨_, rfl, has_find (by decide) rfl (isArr_map bs fun b _ => sees_bp b)⟩
  | threads ids => exact put ⟨_, rfl, has_find (by decide) rfl (isArr_map ids fun b _ => sees_thread b)⟩
  | continued => exact put ⟨_, rfl, has_find (by decide) rfl rfl⟩
  | variables vs =>
    refine put ⟨_, rfl, has_find (by decide) rfl ?_⟩
    unfold wireVars
    rw [List.map_map]
    exact isArr_map vs fun v _ => sees_variable v
  | scopes ss => exact put ⟨_, rfl, has_find (by decide) rfl (isArr_map ss fun b _ => sees_scope b)⟩
  | frames fs n => exact put ⟨_, rfl, has_find (by decide) rfl (isArr_map fs fun b _ => sees_frame b), has_find (by decide) rfl (num_integer _)⟩
  | process name => exact put ⟨_, rfl, has_find (by decide) rfl rfl, has_find (by decide) rfl rfl⟩
  | stopped r th hs =>
    obtain ⟨j, e, hj⟩ := sees_stopped t r th hs
    rw [e]
    exact put hj

theorem has_left {pre post : List (Bytes × Json)} {k : Bytes} {P : Json → Prop} (h : Has pre k P) (hl : Lacks post k) : Has (pre ++ post) k P := by
  obtain ⟨a, v, b, rfl, h1, h2, h3⟩ := h
  refine ⟨a, v, b ++ post, by simp, h1, ?_, h3⟩
  intro m hm
  rcases List.mem_append.1 hm with hm | hm
  · exact h2 m hm
  · exact hl m hm

/-- Responses to a request and events are what the protocol has. -/
theorem sees_sent (name t : Bytes) {s : Sent} (h : s.response = none → event s.body ≠ none) (hd : s.body = .empty → s.response ≠ none → name ∉ demanding) :
    Sees name s (sentOut name t s) := by
  have lb : ∀ {k : Bytes}, Ascii k → Wire.equalFold k b!"body" = false → Lacks (match bodyOut t s.body with
      | some b => [(b!"body", b)]
      | none => []) k := by
    intro k hk h
    cases bodyOut t s.body with
    | none => exact fun m hm => by cases hm
    | some b => exact lacks_of hk (by simp [h])
  obtain ⟨n, r, p⟩ := s
  cases r with
  | some r =>
    obtain ⟨seq, ok⟩ := r
    refine ⟨_, rfl, has_left (has_find (by decide) rfl (num_integer _)) (lb (by decide) (by decide)),
      has_left (has_find (by decide) rfl rfl) (lb (by decide) (by decide)),
      has_left (has_find (by decide) rfl (num_integer _)) (lb (by decide) (by decide)),
      has_left (has_find (by decide) rfl rfl) (lb (by decide) (by decide)),
      has_left (has_find (by decide) rfl rfl) (lb (by decide) (by decide)), sees_body (lacks_of (by decide) rfl) t _ _ ?_⟩
    rintro e x ⟨⟩
    exact hd e (by rintro ⟨⟩)
  | none =>
    have he : ∃ e, event p = some e ∧ eventName p = e := by
      have := h rfl
      cases p <;> first | exact ⟨_, rfl, rfl⟩ | exact (this rfl).elim
    obtain ⟨e, h1, h2⟩ := he
    refine ⟨_, rfl, has_left (has_find (by decide) rfl (num_integer _)) (lb (by decide) (by decide)),
      has_left (has_find (by decide) rfl rfl) (lb (by decide) (by decide)), ⟨e, h1, ?_⟩, sees_body (lacks_of (by decide) rfl) t _ _ (fun _ _ h => by cases h)⟩
    rw [← h2]
    exact has_left (has_find (by decide) rfl rfl) (lb (by decide) (by decide))

/-! ## Numbers in it -/

theorem num_numeric (i : Int) : Numeric (num i) := by
  have := num_proper i
  unfold num at this ⊢
  cases this with
  | num h => exact .num h

theorem numeric_map {α : Type} (xs : List α) (f : α → Json) (h : ∀ x, Numeric (f x)) : Numeric (.arr (xs.map f)) := by
  refine .arr ?_
  intro v hv
  obtain ⟨x, -, rfl⟩ := List.mem_map.1 hv
  exact h x

theorem numeric_obj {ms : List (Bytes × Json)} (h : ∀ m ∈ ms, Numeric m.2) : Numeric (.obj ms) := .obj h

macro "numerics" : tactic => `(tactic| (
  refine numeric_obj ?_
  simp only [List.cons_append, List.nil_append, List.mem_cons, List.mem_append, forall_eq_or_imp, List.not_mem_nil, false_implies, implies_true, and_true, or_false, forall_eq]
  repeat' apply And.intro
  all_goals first | exact num_numeric _ | exact .str _ | exact .bool _ | skip))

theorem nonempty_numeric (k s : Bytes) : ∀ m ∈ nonempty k s, Numeric m.2 := by
  unfold nonempty
  split
  · intro m hm; cases hm
  · intro m hm; rw [List.mem_singleton.1 hm]; exact .str _

theorem source_numeric (s : Source) : Numeric (sourceOut s) := by
  refine numeric_obj ?_
  intro m hm
  rcases List.mem_append.1 hm with h | h <;> exact nonempty_numeric _ _ m h

theorem bp_numeric (b : Bp) : Numeric (bpOut b) := by unfold bpOut; numerics; exact source_numeric _

theorem frame_numeric (b : Dap.Frame) : Numeric (frameOut b) := by unfold frameOut; numerics; exact source_numeric _

theorem thread_numeric (b : Nat) : Numeric (threadOut b) := by unfold threadOut; numerics

theorem variable_numeric (b : Nat × Shown) : Numeric (variableOut b) := by unfold variableOut; numerics

theorem scope_numeric (b : Scope) : Numeric (scopeOut b) := by
  unfold scopeOut
  cases b.indexed <;> numerics

theorem body_numeric (t : Bytes) (p : Payload) : ∀ j, bodyOut t p = some j → Numeric j := by
  intro j h
  cases p with
  | empty => cases h
  | initialized => cases h
  | capabilities => cases h; numerics
  | continued => cases h; numerics
  | breakpoints bs => cases h; numerics; exact numeric_map _ _ bp_numeric
  | threads bs => cases h; numerics; exact numeric_map _ _ thread_numeric
  | variables bs => cases h; numerics; exact numeric_map _ _ variable_numeric
  | scopes bs => cases h; numerics; exact numeric_map _ _ scope_numeric
  | frames bs n => cases h; numerics; exact numeric_map _ _ frame_numeric
  | process n => cases h; numerics
  | stopped r th hs =>
    cases h
    refine numeric_obj ?_
    intro m hm
    simp only [List.mem_append] at hm
    rcases hm with (((hm | hm) | hm) | hm) | hm
    · rw [List.mem_singleton.1 hm]; exact .str _
    · split at hm
      · exact nonempty_numeric _ _ m hm
      · cases hm
    · split at hm
      · rw [List.mem_singleton.1 hm]; exact num_numeric _
      · cases hm
    · rw [List.mem_singleton.1 hm]; exact .bool _
    · split at hm
      · cases hm
      · rw [List.mem_singleton.1 hm]; exact numeric_map _ _ fun _ => num_numeric _

theorem sent_numeric (name t : Bytes) (s : Sent) : Numeric (sentOut name t s) := by
  have hb : ∀ m ∈ (match bodyOut t s.body with
      | some b => [(b!"body", b)]
      | none => []), Numeric m.2 := by
    intro m hm
    split at hm
    · rename_i b e
      rw [List.mem_singleton.1 hm]; exact body_numeric t _ b e
    · cases hm
  unfold sentOut
  dsimp only
  split
  · refine numeric_obj ?_
    intro m hm
    rcases List.mem_append.1 hm with hm | hm
    · simp only [List.mem_cons, List.not_mem_nil, or_false] at hm
      rcases hm with rfl | rfl | rfl | rfl | rfl
      · exact num_numeric _
      · exact .str _
      · exact num_numeric _
      · exact .bool _
      · exact .str _
    · exact hb m hm
  · refine numeric_obj ?_
    intro m hm
    rcases List.mem_append.1 hm with hm | hm
    · simp only [List.mem_cons, List.not_mem_nil, or_false] at hm
      rcases hm with rfl | rfl | rfl
      · exact num_numeric _
      · exact .str _
      · exact .str _
    · exact hb m hm

/-! ## What is sent -/

/-- A response answers the message; an event has a name. -/
def Proper (seq : Int) (o : Sent) : Prop :=
  (∀ n ok, o.response = some (n, ok) → n = seq) ∧ (o.response = none → event o.body ≠ none)

theorem proper_reply (n : Nat) (seq : Int) (ok : Bool) (b : Payload) : DapSpec.Proper seq ⟨n, some (seq, ok), b⟩ := by
  refine ⟨?_, ?_⟩
  · intro n' ok' h; cases h; rfl
  · intro h; cases h

theorem handles_sent {env : Env} {d : Dbg} {m : Msg} {r : Outcome} (h : Handles env d m r) : ∀ o ∈ r.outs, DapSpec.Proper m.seq o := by
  have two : ∀ {n k : Nat} {seq : Int} {ok : Bool} {b e : Payload}, event e ≠ none →
      ∀ o ∈ [(⟨n, some (seq, ok), b⟩ : Sent), ⟨k, none, e⟩], DapSpec.Proper seq o := by
    intro n k seq ok b e he o ho
    rcases List.mem_cons.1 ho with rfl | ho
    · exact proper_reply _ _ _ _
    · rw [List.mem_singleton.1 ho]
      exact ⟨(fun _ _ h => by cases h), fun _ => he⟩
  have one : ∀ {n : Nat} {seq : Int} {ok : Bool} {b : Payload}, ∀ o ∈ [(⟨n, some (seq, ok), b⟩ : Sent)], DapSpec.Proper seq o := by
    intro n seq ok b o ho
    rw [List.mem_singleton.1 ho]
    exact proper_reply _ _ _ _
  obtain ⟨seq, cmd⟩ := m
  cases h with
  | plain _ h =>
    unfold Dbg.handle at h
    dsimp only at h
    repeat' split at h
    all_goals first
      | (cases h; done)
      | (cases h; first
        | exact one
        | exact two (by simp [event])
        | (intro o ho; rcases List.mem_cons.1 ho with ho | ho
           · rw [ho]; exact proper_reply _ _ _ _
           · rcases List.mem_cons.1 ho with ho | ho
             · rw [ho]; exact ⟨(fun _ _ h => by cases h), fun _ => by simp [event, Dbg.notify]⟩
             · rw [List.mem_singleton.1 ho]; exact ⟨(fun _ _ h => by cases h), fun _ => by simp [event, Dbg.notify]⟩)
        | (intro o ho; cases ho; done))
  | continue_ a _ _ _ h =>
    cases h with
    | failed => exact two (by simp [event])
    | crashed => exact one
    | hit => exact two (by simp [event])
    | ended => exact two (by simp [event])
    | running => exact one

end Teal.DapSpec
