import Verif.Spec.Eni
/-!
# Sessions with an operation object
-/
namespace Eni.Base
open Spec

variable {S : Type}

theorem goesOn_bind {α β} (r : Res α) (f : α → β) : goesOn (r >>= fun x => .ok (f x)) = goesOn r := by cases r <;> rfl

/-- After acceptance. -/
theorem session_accepted (H : Hooks S) : ∀ (cs : List Call) (o : Obj S) (vs : List Value), o.parsed = true → o.success = true → o.ret = .arr vs →
    (session H o cs).2 = accepted H o.st vs cs := by
  intro cs
  induction cs with
  | nil => intros; rfl
  | cons c cs ih =>
    intro o vs h1 h2 h3
    have hc : check H o = (o, .ok true) := by simp [check, h1, h2]
    cases c with
    | getGas =>
      have hg : call H o .getGas = ({ o with calls := o.calls ++ [.gas] }, H.gas o.st >>= fun n => .ok (.gas n)) := by
        simp [call, getGas, hc]
      simp only [session, hg, accepted]
      cases hr : H.gas o.st with
      | ok n => simp [goesOn, ih { o with calls := o.calls ++ [.gas] } vs h1 h2 h3]
      | throw n => simp [goesOn, ih { o with calls := o.calls ++ [.gas] } vs h1 h2 h3]
      | ub u => simp [goesOn]
      | diverge => simp [goesOn]
      | exit u => simp [goesOn]
    | start =>
      simp only [session, call, start, hc, h3, Value.toArray, accepted]
      rcases hr : H.run o.st vs with ⟨st', vs', r⟩
      have := ih { o with st := st', ret := .arr vs', calls := o.calls ++ [.run] } vs' h1 h2 rfl
      cases r with
      | ok b => cases b <;> simp [goesOn, this, hr]
      | throw e => simp [goesOn, this, hr]
      | ub u => simp [goesOn, hr]
      | diverge => simp [goesOn, hr]
      | exit u => simp [goesOn, hr]

/-- After rejection. -/
theorem session_rejected (H : Hooks S) : ∀ (cs : List Call) (o : Obj S), o.parsed = true → o.success = false →
    session H o cs = (o, rejected cs) := by
  intro cs
  induction cs with
  | nil => intros; rfl
  | cons c cs ih =>
    intro o h1 h2
    have hc : check H o = (o, .ok false) := by simp [check, h1, h2]
    cases c with
    | getGas => simp [session, call, getGas, hc, goesOn, ih o h1 h2, rejected]
    | start => simp [session, call, start, hc, goesOn, ih o h1 h2, rejected]

/-- A call asks `check` first. -/
theorem call_of_check {H : Hooks S} {o o' : Obj S} {b : Bool} (h : check H o = (o', .ok b)) (hp : o'.parsed = true) (hb : o'.success = b) (c : Call) :
    call H o c = call H o' c := by
  have h' : check H o' = (o', .ok b) := by simp [check, hp, hb]
  cases c <;> simp [call, getGas, start, h, h']

theorem session_of_check {H : Hooks S} {o o' : Obj S} {b : Bool} (h : check H o = (o', .ok b)) (hp : o'.parsed = true) (hb : o'.success = b) (c : Call)
    (cs : List Call) : session H o (c :: cs) = session H o' (c :: cs) := by
  simp only [session, call_of_check h hp hb c]

/-- Invocations of the parse hook that returned. -/
def returned : HookCall → Bool
  | .parse (.ok _) => true
  | _ => false

/-- Invocations of the parse hook. -/
def isParse : HookCall → Bool
  | .parse _ => true
  | _ => false

/-- Bookkeeping invariant: once `parse` has returned it is not invoked again; before that nothing but failing invocations of `parse` happened. -/
def LogOk (o : Obj S) : Prop :=
  (o.parsed = false → ∀ c ∈ o.calls, isParse c = true ∧ returned c = false) ∧
  (o.parsed = true → ∃ pre post, o.calls = pre ++ .parse (.ok o.success) :: post ∧ (∀ c ∈ pre, isParse c = true ∧ returned c = false) ∧
    (∀ c ∈ post, isParse c = false) ∧ (o.success = false → post = []))

theorem check_parsed {H : Hooks S} {o : Obj S} (hp : o.parsed = true) : check H o = (o, .ok o.success) := by simp [check, hp]

theorem check_ok {H : Hooks S} {o : Obj S} (hp : o.parsed = false) {vs : List Value} (ha : o.args.toArray = .ok vs) {st : S} {b : Bool}
    (hr : H.parse o.st vs = (st, .ok b)) :
    check H o = ({ o with parsed := true, success := b, st := st, calls := o.calls ++ [.parse (.ok b)] }, .ok b) := by
  simp [check, hp, ha, hr]

theorem check_fail {H : Hooks S} {o : Obj S} (hp : o.parsed = false) {vs : List Value} (ha : o.args.toArray = .ok vs) {st : S} {r : Res Bool}
    (hr : H.parse o.st vs = (st, r)) (hn : ∀ b, r ≠ .ok b) :
    check H o = ({ o with st := st, calls := o.calls ++ [.parse r] }, r) := by
  cases r with
  | ok b => exact absurd rfl (hn b)
  | _ => simp [check, hp, ha, hr]

theorem LogOk.check {H : Hooks S} {o : Obj S} (h : LogOk o) : LogOk (check H o).1 ∧ (∀ b, (Base.check H o).2 = .ok b → (Base.check H o).1.parsed = true ∧ (Base.check H o).1.success = b) := by
  cases hp : o.parsed with
  | true =>
    rw [check_parsed hp]
    exact ⟨h, fun b hb => ⟨hp, by simpa using hb⟩⟩
  | false =>
    have h0 := h.1 hp
    cases ha : o.args.toArray with
    | ok vs =>
      rcases hr : H.parse o.st vs with ⟨st, r⟩
      by_cases hn : ∃ b, r = .ok b
      · obtain ⟨b, rfl⟩ := hn
        rw [check_ok hp ha hr]
        refine ⟨⟨by simp, fun _ => ⟨o.calls, [], by simp, h0, by simp, by simp⟩⟩, ?_⟩
        intro b' hb'
        simp only [Res.ok.injEq] at hb'
        exact ⟨rfl, hb'⟩
      · have hn' : ∀ b, r ≠ .ok b := fun b e => hn ⟨b, e⟩
        rw [check_fail hp ha hr hn']
        refine ⟨⟨fun _ => ?_, by simp [hp]⟩, fun b hb => absurd hb (hn' b)⟩
        simp only [List.mem_append, List.mem_singleton]
        rintro c (hc | rfl)
        · exact h0 c hc
        · refine ⟨rfl, ?_⟩
          cases r with
          | ok b => exact absurd rfl (hn' b)
          | _ => rfl
    | throw e => simp only [Base.check, hp, ha, Bool.false_eq_true, if_false]; exact ⟨h, by simp⟩
    | ub e => simp only [Base.check, hp, ha, Bool.false_eq_true, if_false]; exact ⟨h, by simp⟩
    | diverge => simp only [Base.check, hp, ha, Bool.false_eq_true, if_false]; exact ⟨h, by simp⟩
    | exit e => simp only [Base.check, hp, ha, Bool.false_eq_true, if_false]; exact ⟨h, by simp⟩

theorem LogOk.add {o : Obj S} (h : LogOk o) (hp : o.parsed = true) (hs : o.success = true) (c : HookCall) (hc : isParse c = false) (st : S) (ret : Value) :
    LogOk { o with st := st, ret := ret, calls := o.calls ++ [c] } := by
  obtain ⟨pre, post, h1, h2, h3, _⟩ := h.2 hp
  refine ⟨by simp [hp], fun _ => ⟨pre, post ++ [c], by simp [h1], h2, ?_, by simp [hs]⟩⟩
  simp only [List.mem_append, List.mem_singleton]
  rintro x (hx | rfl)
  · exact h3 x hx
  · exact hc

theorem LogOk.call {H : Hooks S} {o : Obj S} (h : LogOk o) (c : Call) : LogOk (call H o c).1 := by
  obtain ⟨h1, h2⟩ := h.check (H := H)
  cases c with
  | getGas =>
    simp only [Base.call, getGas]
    rcases hc : Base.check H o with ⟨o', r⟩
    rw [hc] at h1 h2
    cases r with
    | ok b =>
      cases b with
      | false => exact h1
      | true =>
        obtain ⟨a, b⟩ := h2 true rfl
        exact h1.add a b .gas rfl o'.st o'.ret
    | _ => exact h1
  | start =>
    simp only [Base.call, start]
    rcases hc : Base.check H o with ⟨o', r⟩
    rw [hc] at h1 h2
    cases r with
    | ok b =>
      cases b with
      | false => exact h1
      | true =>
        obtain ⟨a, b⟩ := h2 true rfl
        simp only
        cases hr : o'.ret.toArray with
        | ok vs =>
          rcases hq : H.run o'.st vs with ⟨st, vs', r⟩
          have := h1.add a b .run rfl st (.arr vs')
          simp only [hq]
          cases r with
          | ok b => cases b <;> exact this
          | _ => exact this
        | _ => exact h1
    | _ => exact h1

theorem LogOk.session {H : Hooks S} : ∀ (cs : List Call) (o : Obj S), LogOk o → LogOk (session H o cs).1 := by
  intro cs
  induction cs with
  | nil => intro o h; exact h
  | cons c cs ih =>
    intro o h
    have h1 := h.call (H := H) c
    simp only [Base.session]
    rcases hc : Base.call H o c with ⟨o', r⟩
    rw [hc] at h1
    simp only
    split
    · exact ih o' h1
    · exact h1

end Eni.Base
