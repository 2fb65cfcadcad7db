import Verif.Proofs.EniBase
import Verif.Props.Json
/-!
# Properties C36-C41: operation objects and the C entry points

`Hooks S` is an arbitrary operation. `Spec.accepted` and `Spec.rejected` say what a sequence of `getGas()` and `start()` calls should
answer once the verdict of the parse hook is known.
-/
namespace Eni.Props
open Spec Base Json

variable {S : Type}

/-- A newly constructed object. -/
theorem construct_ok {H : Hooks S} {L : Layout} {s : Bytes} {o : Obj S} (h : construct H L s = .ok o) :
    ∃ root, parse L s = .ok ⟨true, root⟩ ∧ o = ⟨false, false, copyTop root, .arr [], H.init, []⟩ := by
  unfold construct at h
  rw [Res.bind_eq_ok] at h
  obtain ⟨⟨b, root⟩, h1, h2⟩ := h
  cases b with
  | false => simp at h2
  | true =>
    simp only [if_true, Res.ok.injEq] at h2
    exact ⟨root, h1, h2.symm⟩

theorem construct_of {H : Hooks S} {L : Layout} {s : Bytes} {root : Value} (h : parse L s = .ok ⟨true, root⟩) :
    construct H L s = .ok ⟨false, false, copyTop root, .arr [], H.init, []⟩ := by
  simp [construct, h]

/-! ### C36 -/

/-- C36, for all hooks: whatever calls are made on an object, at most one invocation of the parse hook returns; it is the last one, and
before it nothing but invocations of the parse hook that did not return (they threw) took place. -/
theorem C36_returns_once (H : Hooks S) (L : Layout) (s : Bytes) (o : Obj S) (h : construct H L s = .ok o) (cs : List Call) :
    (∀ c ∈ (session H o cs).1.calls, ∃ r, c = .parse r ∧ ∀ b, r ≠ .ok b) ∨
    ∃ pre post b, (session H o cs).1.calls = pre ++ .parse (.ok b) :: post ∧ (∀ c ∈ pre, ∃ r, c = .parse r ∧ ∀ b, r ≠ .ok b) ∧
      ∀ c ∈ post, ∀ r, c ≠ .parse r := by
  obtain ⟨root, h1, rfl⟩ := construct_ok h
  have h0 : LogOk (⟨false, false, copyTop root, .arr [], H.init, []⟩ : Obj S) := ⟨by simp, by simp⟩
  have key : ∀ c, isParse c = true ∧ returned c = false → ∃ r, c = .parse r ∧ ∀ b, r ≠ .ok b := by
    rintro c ⟨ha, hb⟩
    cases c with
    | parse r =>
      refine ⟨r, rfl, ?_⟩
      rintro b rfl
      simp [returned] at hb
    | _ => simp [isParse] at ha
  have h2 := LogOk.session (H := H) cs _ h0
  generalize (session H _ cs).1 = o' at h2
  cases hp : o'.parsed with
  | false => exact .inl fun c hc => key c (h2.1 hp c hc)
  | true =>
    obtain ⟨pre, post, e1, e2, e3, _⟩ := h2.2 hp
    refine .inr ⟨pre, post, _, e1, fun c hc => key c (e2 c hc), ?_⟩
    rintro c hc r rfl
    have := e3 _ hc
    simp [isParse] at this

/-- C36, the part that holds in full: for an operation whose parse hook always returns, it is invoked at most once. -/
theorem C36_once_partial (H : Hooks S) (hH : ∀ st vs, ∃ b, (H.parse st vs).2 = .ok b) (L : Layout) (s : Bytes) (o : Obj S)
    (h : construct H L s = .ok o) (cs : List Call) : ((session H o cs).1.calls.filter isParse).length ≤ 1 := by
  -- the hook cannot have failed
  have hlog : ∀ (cs : List Call) (o : Obj S), (∀ r, .parse r ∈ o.calls → ∃ b, r = .ok b) → ∀ r, .parse r ∈ (session H o cs).1.calls → ∃ b, r = .ok b := by
    have hchk : ∀ (o : Obj S), (∀ r, .parse r ∈ o.calls → ∃ b, r = .ok b) → ∀ r, .parse r ∈ (check H o).1.calls → ∃ b, r = .ok b := by
      intro o ho r hr
      cases hp : o.parsed with
      | true => rw [check_parsed hp] at hr; exact ho r hr
      | false =>
        cases ha : o.args.toArray with
        | ok vs =>
          obtain ⟨b, hb⟩ := hH o.st vs
          rw [check_ok hp ha (Prod.ext rfl hb : H.parse o.st vs = (_, .ok b))] at hr
          simp only [List.mem_append, List.mem_singleton, HookCall.parse.injEq] at hr
          rcases hr with hr | rfl
          · exact ho r hr
          · exact ⟨b, rfl⟩
        | _ => simp only [check, hp, ha, Bool.false_eq_true, if_false] at hr; exact ho r hr
    have hcall : ∀ (o : Obj S) (c : Call), (∀ r, .parse r ∈ o.calls → ∃ b, r = .ok b) → ∀ r, .parse r ∈ (call H o c).1.calls → ∃ b, r = .ok b := by
      intro o c ho
      have h1 := hchk o ho
      cases c with
      | getGas =>
        simp only [call, getGas]
        rcases hc : check H o with ⟨o', q⟩
        rw [hc] at h1
        cases q with
        | ok b =>
          cases b with
          | false => exact h1
          | true => intro r hr; simp at hr; exact h1 r hr
        | _ => exact h1
      | start =>
        simp only [call, start]
        rcases hc : check H o with ⟨o', q⟩
        rw [hc] at h1
        cases q with
        | ok b =>
          cases b with
          | false => exact h1
          | true =>
            simp only
            cases hv : o'.ret.toArray with
            | ok vs =>
              rcases hq : H.run o'.st vs with ⟨st, vs', r⟩
              have h2 : ∀ r, HookCall.parse r ∈ o'.calls ++ [.run] → ∃ b, r = .ok b := by
                intro r hr
                simp at hr
                exact h1 r hr
              simp only [hq]
              cases r with
              | ok b => cases b <;> exact h2
              | _ => exact h2
            | _ => exact h1
        | _ => exact h1
    intro cs
    induction cs with
    | nil => intro o ho; exact ho
    | cons c cs ih =>
      intro o ho
      have h1 := hcall o c ho
      simp only [session]
      rcases hc : call H o c with ⟨o', q⟩
      rw [hc] at h1
      simp only
      split
      · exact ih o' h1
      · exact h1
  have hnil : o.calls = [] := by
    obtain ⟨_, _, rfl⟩ := construct_ok h
    rfl
  have hok := hlog cs o (by simp [hnil])
  have hfilter : ∀ l : List HookCall, (∀ c ∈ l, ∀ r, c ≠ .parse r) → l.filter isParse = [] := by
    intro l hl
    rw [List.filter_eq_nil_iff]
    intro c hc
    cases c with
    | parse r => exact absurd rfl (hl _ hc r)
    | _ => simp [isParse]
  rcases C36_returns_once H L s o h cs with h1 | ⟨pre, post, b, h1, h2, h3⟩
  · rw [hfilter]
    · simp
    · rintro c hc r rfl
      obtain ⟨r', e, hne⟩ := h1 _ hc
      cases e
      obtain ⟨b, rfl⟩ := hok r hc
      exact hne b rfl
  · rw [h1, List.filter_append, hfilter pre, List.filter_cons, hfilter post h3]
    · simp [isParse]
    · rintro c hc r rfl
      obtain ⟨r', e, hne⟩ := h2 _ hc
      cases e
      obtain ⟨b, rfl⟩ := hok r (by rw [h1]; simp [hc])
      exact hne b rfl

/-- C36 is false of the code if the parse hook throws (as `reverse` does when it is given no argument, C55): it is invoked again by every
call. -/
theorem C36_throwing_false (H : Hooks S) (e : Exc) (hH : ∀ st vs, (H.parse st vs).2 = .throw e) (L : Layout) (s : Bytes) (o : Obj S)
    (h : construct H L s = .ok o) (vs : List Value) (ha : o.args = .arr vs) (cs : List Call) :
    (session H o cs).1.calls = List.replicate cs.length (.parse (.throw e)) ∧ (session H o cs).2 = List.replicate cs.length (.throw e) := by
  have key : ∀ (cs : List Call) (o : Obj S), o.parsed = false → o.args = .arr vs →
      (session H o cs).1.calls = o.calls ++ List.replicate cs.length (.parse (.throw e)) ∧ (session H o cs).2 = List.replicate cs.length (.throw e) := by
    intro cs
    induction cs with
    | nil => intro o _ _; simp [session]
    | cons c cs ih =>
      intro o hp ha
      have hta : o.args.toArray = .ok vs := by rw [ha]; rfl
      have hck := check_fail (H := H) hp hta (Prod.ext rfl (hH o.st vs) : H.parse o.st vs = ((H.parse o.st vs).1, .throw e)) (by simp)
      have hcall : call H o c = ({ o with st := (H.parse o.st vs).1, calls := o.calls ++ [.parse (.throw e)] }, .throw e) := by
        cases c <;> simp [call, getGas, start, hck]
      have h2 := ih { o with st := (H.parse o.st vs).1, calls := o.calls ++ [.parse (.throw e)] } hp ha
      simp only [session, hcall, goesOn, if_true, h2.1, h2.2]
      refine ⟨?_, rfl⟩
      simp [List.replicate_succ]
  obtain ⟨root, _, rfl⟩ := construct_ok h
  have := key cs _ rfl ha
  simpa using this

/-- An operation that accepts `[true]`, answers gas 7 and appends a string; used in the examples. -/
def demo : Hooks Nat where
  init := 0
  parse := fun n vs => (n + 1, .ok (vs.length == 1))
  gas := fun n => .ok (7 * n)
  run := fun n vs => (n, vs ++ [.str [120]], .ok true)

example (L : Layout) (hL : L.Good) : ∃ o, construct demo L [91, 53, 93] = .ok o ∧ o.args = .arr [.int 5] := by
  have h5 : JText [53] (.int 5) := by
    have : wrap256 5 = 5 := by decide
    rw [← this]
    exact .int (.nonneg (n := 5) ⟨by simp, by simp [Digit], by simp, rfl⟩)
  have ht : JText [91, 53, 93] (.arr [.int 5]) := .arr (.one (w := []) (w' := []) (by simp [WS]) h5 (by simp [WS]))
  obtain ⟨x, h1, h2⟩ := C24_complete_noMembers L hL (w := []) (r := []) (by simp [WS]) ht (by simp) (.arr (by simp; exact .int))
  have hx : x = .arr [.int 5] := shows_unique (.arr rfl (by
    intro i v j h1 h2
    match i with
    | 0 => simp at h1 h2; subst h1; subst h2; exact .int
    | i + 1 => simp at h1)) (.arr (by simp; exact .int)) x h2
  subst hx
  exact ⟨_, construct_of (by simpa using h1), rfl⟩

/-! ### C37 -/

/-- C37, rejection: every `getGas()` returns 1500, every `start()` returns null, and neither the gas hook nor the run hook is invoked. -/
theorem C37_rejected (H : Hooks S) (L : Layout) (s : Bytes) (o : Obj S) (h : construct H L s = .ok o) (vs : List Value) (ha : o.args = .arr vs)
    (st : S) (hr : H.parse H.init vs = (st, .ok false)) (cs : List Call) :
    (session H o cs).2 = rejected cs ∧ .gas ∉ (session H o cs).1.calls ∧ .run ∉ (session H o cs).1.calls := by
  obtain ⟨root, _, rfl⟩ := construct_ok h
  cases cs with
  | nil => simp [session, rejected]
  | cons c cs =>
    have hta : (copyTop root).toArray = .ok vs := by
      have : copyTop root = .arr vs := ha
      rw [this]; rfl
    rw [session_of_check (check_ok rfl hta hr) rfl rfl, session_rejected H _ _ rfl rfl]
    simp

/-- C37, acceptance: every `getGas()` answers what the gas hook says; `start()` runs the operation and returns null only if the run hook
reports failure, otherwise the printed results. -/
theorem C37_accepted (H : Hooks S) (L : Layout) (s : Bytes) (o : Obj S) (h : construct H L s = .ok o) (vs : List Value) (ha : o.args = .arr vs)
    (st : S) (hr : H.parse H.init vs = (st, .ok true)) (cs : List Call) : (session H o cs).2 = accepted H st [] cs := by
  obtain ⟨root, _, rfl⟩ := construct_ok h
  cases cs with
  | nil => rfl
  | cons c cs =>
    have hta : (copyTop root).toArray = .ok vs := by
      have : copyTop root = .arr vs := ha
      rw [this]; rfl
    rw [session_of_check (check_ok rfl hta hr) rfl rfl, session_accepted H _ _ [] rfl rfl rfl]

example : demo.parse demo.init [.int 5] = (1, .ok true) ∧ demo.parse demo.init [] = (1, .ok false) ∧
    accepted demo 1 [] [.getGas, .getGas] = [.ok (.gas 7), .ok (.gas 7)] ∧ rejected [.start, .getGas] = [.ok (.text none), .ok (.gas 1500)] :=
  ⟨rfl, rfl, rfl, rfl⟩

/-! ### C38 -/

theorem cstr_of_notMem {s : Bytes} (h : 0 ∉ s) : cstr s = s := by
  unfold cstr
  induction s with
  | nil => rfl
  | cons b s ih =>
    simp only [List.mem_cons, not_or] at h
    have hb : b ≠ 0 := fun e => h.1 e.symm
    simp [List.takeWhile_cons, hb]
    simpa using ih h.2

theorem cstr_of_clean {s : Bytes} (h : ∀ b ∈ s, 32 ≤ b) : cstr s = s :=
  cstr_of_notMem fun h0 => absurd (h 0 h0) (by decide)

/-- C38. If the results contain no object, the C string returned by `start()` is the whole printed array, and whoever parses it gets the
results back. -/
theorem C38_complete (H : Hooks S) (o : Obj S) (hp : o.parsed = true) (hs : o.success = true) (old : List Value) (ho : o.ret = .arr old) (st : S)
    (vs : List Value) (hr : H.run o.st old = (st, vs, .ok true)) (js : List JV) (hv : Shows (.arr vs) (.arr js)) (hf : ObjFree (.arr js)) :
    (start H o).2 = .ok (some (Value.print (.arr vs))) ∧
    (InRange (.arr js) → ∀ L : Layout, L.Good → parse L (Value.print (.arr vs)) = .ok ⟨true, .arr vs⟩) := by
  constructor
  · have hc : check H o = (o, .ok true) := by rw [check_parsed hp, hs]
    simp only [start, hc, ho, Value.toArray, hr]
    rw [cstr_of_clean (C62_object_free_partial hv hf)]
  · intro hi L hL
    exact C27_object_free_partial L hL hv hf hi

/-- C38 through the C entry point: the operation accepts and runs. -/
theorem C38_entry (H : Hooks S) (L : Layout) (s : Bytes) (args : List Value) (hpar : parse L (cstr s) = .ok ⟨true, .arr args⟩) (st st' : S)
    (h1 : H.parse H.init args = (st, .ok true)) (vs : List Value) (hr : H.run st [] = (st', vs, .ok true)) (js : List JV) (hv : Shows (.arr vs) (.arr js))
    (hf : ObjFree (.arr js)) : opRun H L s = .ok (some (Value.print (.arr vs))) := by
  simp only [opRun, construct_of hpar, Res.ok_bind, copyTop]
  have hck := check_ok (H := H) (o := ⟨false, false, .arr args, .arr [], H.init, []⟩) rfl rfl h1
  simp only [start, hck, Value.toArray, hr]
  rw [cstr_of_clean (C62_object_free_partial hv hf)]

example : demo.run 1 [] = (1, [.str [120]], .ok true) ∧ ∃ js, Shows (.arr [.str [120]]) (.arr js) ∧ ObjFree (.arr js) :=
  ⟨rfl, [.str [120]], .arr rfl (by
    intro i v j h1 h2
    match i with
    | 0 => simp at h1 h2; subst h1; subst h2; exact .str
    | i + 1 => simp at h1), .arr (by simp; exact .str)⟩

/-! ### C39 -/

/-- C39, complete description: the outcome of `OP_gas` for any argument text of at most 1073643498 bytes. -/
theorem C39_outcomes (H : Hooks S) (L : Layout) (s : Bytes) (hlen : s.length ≤ 1073643498) :
    (parse L (cstr s) = .ok ⟨false, .undef⟩ ∧ opGas H L s = .exit 87) ∨
    (∃ root, parse L (cstr s) = .ok ⟨true, root⟩ ∧ (∀ vs, root ≠ .arr vs) ∧ opGas H L s = .ub .badUnion) ∨
    (∃ vs, parse L (cstr s) = .ok ⟨true, .arr vs⟩ ∧ opGas H L s =
      match H.parse H.init vs with
      | (_, .ok false) => .ok 1500
      | (st, .ok true) => H.gas st
      | (_, .throw e) => .throw e
      | (_, .ub u) => .ub u
      | (_, .diverge) => .diverge
      | (_, .exit c) => .exit c) := by
  have hl : (cstr s).length ≤ 1073643498 := le_trans (List.takeWhile_prefix _).length_le hlen
  obtain ⟨b, root, h⟩ := C23_total L (cstr s) hl
  have hroot := C31_root L _ hl b root h
  cases b with
  | false =>
    have := hroot.1 rfl
    subst this
    exact .inl ⟨h, by simp [opGas, construct, h]⟩
  | true =>
    right
    by_cases ha : ∃ vs, root = .arr vs
    · obtain ⟨vs, rfl⟩ := ha
      right
      refine ⟨vs, h, ?_⟩
      simp only [opGas, construct_of h, Res.ok_bind, copyTop]
      rcases hp : H.parse H.init vs with ⟨st, r⟩
      by_cases hn : ∃ b, r = .ok b
      · obtain ⟨b, rfl⟩ := hn
        simp only [getGas, check_ok (H := H) (o := ⟨false, false, .arr vs, .arr [], H.init, []⟩) rfl rfl hp]
        cases b <;> rfl
      · have hn' : ∀ b, r ≠ .ok b := fun b e => hn ⟨b, e⟩
        simp only [getGas, check_fail (H := H) (o := ⟨false, false, .arr vs, .arr [], H.init, []⟩) rfl rfl hp hn']
        cases r with
        | ok b => exact absurd rfl (hn' b)
        | _ => rfl
    · left
      refine ⟨root, h, fun vs e => ha ⟨vs, e⟩, ?_⟩
      simp only [opGas, construct_of h, Res.ok_bind]
      have : (copyTop root).toArray = .ub .badUnion := by
        cases root with
        | arr vs => exact absurd ⟨vs, rfl⟩ ha
        | _ => rfl
      simp [getGas, check, this]

/-- C39 is false of the code: an argument text that is a JSON value but not an array is accepted by the constructor, and `getGas()` reads
the wrong member of the union. -/
theorem C39_not_array_false (H : Hooks S) (L : Layout) (hL : L.Good) {t : Bytes} {j : JV} (ht : JText t j) (hk : ShortKeys j)
    (hlen : t.length ≤ 1073643498) (h0 : 0 ∉ t) (ha : ∀ js, j ≠ .arr js) : opGas H L t = .ub .badUnion := by
  have hc : cstr t = t := cstr_of_notMem h0
  obtain ⟨x, h1, h2⟩ := C24_complete L hL (w := []) (r := []) (by simp [WS]) ht (by simp [NoDigit]) hk (by simpa using hlen)
  rw [List.nil_append, List.append_nil] at h1
  rcases C39_outcomes H L t hlen with ⟨h, _⟩ | ⟨_, _, _, h⟩ | ⟨vs, h, _⟩
  · rw [hc, h1] at h; cases h
  · exact h
  · rw [hc, h1] at h
    cases h
    cases h2 with
    | arr => exact absurd rfl (ha _)

/-- C39, the part that holds: texts that do not parse, and texts of arrays if the hooks are defined. -/
theorem C39_array_partial (H : Hooks S) (hp : ∀ st vs, (H.parse st vs).2.Defined) (hg : ∀ st, (H.gas st).Defined) (L : Layout) (s : Bytes)
    (hlen : s.length ≤ 1073643498) (ha : ∀ root, parse L (cstr s) = .ok ⟨true, root⟩ → ∃ vs, root = .arr vs) : (opGas H L s).Defined := by
  rcases C39_outcomes H L s hlen with ⟨_, h⟩ | ⟨root, h1, h2, _⟩ | ⟨vs, _, h⟩
  · rw [h]; trivial
  · obtain ⟨vs, e⟩ := ha root h1
    exact absurd e (h2 vs)
  · rw [h]
    have := hp H.init vs
    rcases hq : H.parse H.init vs with ⟨st, r⟩
    rw [hq] at this
    cases r with
    | ok b =>
      cases b with
      | false => trivial
      | true => exact hg st
    | throw e => trivial
    | exit e => trivial
    | ub u => exact absurd this id
    | diverge => exact absurd this id

/-- the text `"a"` -/
example (L : Layout) (hL : L.Good) : opGas demo L [34, 97, 34] = .ub .badUnion :=
  C39_not_array_false demo L hL (t := [34, 97, 34]) (j := .str [97]) (.str (.raw (by decide) (by decide) .nil)) .str (by decide) (by decide) (by simp)

/-! ### C40 -/

theorem shows_strs (ss : List Bytes) : Shows (.arr (ss.map .str)) (.arr (ss.map .str)) ∧ ObjFree (.arr (ss.map .str)) ∧ InRange (.arr (ss.map .str)) := by
  refine ⟨.arr (by simp) ?_, .arr ?_, .arr ?_⟩
  · intro i v j h1 h2
    rw [List.getElem?_map, Option.map_eq_some_iff] at h1 h2
    obtain ⟨a, ha, rfl⟩ := h1
    obtain ⟨b, hb, rfl⟩ := h2
    rw [ha] at hb
    cases hb
    exact .str
  · simp only [List.mem_map]
    rintro j ⟨a, _, rfl⟩
    exact .str
  · simp only [List.mem_map]
    rintro j ⟨a, _, rfl⟩
    exact .str

/-- C40 is false of the code: for every operation whose run hook appends a string to the result array (as all operations in /repo do),
the second `start()` returns another text, because the result array is kept. -/
theorem C40_accumulates_false (H : Hooks S) (hH : ∀ st vs, ∃ st' s, H.run st vs = (st', vs ++ [.str s], .ok true)) (L : Layout) (s : Bytes)
    (o : Obj S) (h : construct H L s = .ok o) (vs : List Value) (ha : o.args = .arr vs) (st : S) (hr : H.parse H.init vs = (st, .ok true)) :
    ∃ t t', (session H o [.start, .start]).2 = [.ok (.text (some t)), .ok (.text (some t'))] ∧ t ≠ t' := by
  rw [C37_accepted H L s o h vs ha st hr]
  obtain ⟨st1, a, e1⟩ := hH st []
  obtain ⟨st2, b, e2⟩ := hH st1 ([] ++ [.str a])
  simp only [accepted, e1, e2]
  refine ⟨_, _, rfl, ?_⟩
  obtain ⟨s1, f1, i1⟩ := shows_strs [a]
  obtain ⟨s2, f2, i2⟩ := shows_strs [a, b]
  simp only [List.map_cons, List.map_nil] at s1 f1 i1 s2 f2 i2
  simp only [List.nil_append, List.cons_append]
  rw [cstr_of_clean (C62_object_free_partial s1 f1), cstr_of_clean (C62_object_free_partial s2 f2)]
  intro e
  have g1 := C27_object_free_partial ⟨7, 0, 3⟩ good_layout s1 f1 i1
  have g2 := C27_object_free_partial ⟨7, 0, 3⟩ good_layout s2 f2 i2
  rw [e, g2] at g1
  cases g1

example : ∀ st vs, ∃ st' s, demo.run st vs = (st', vs ++ [.str s], .ok true) := fun st vs => ⟨st, [120], rfl⟩

/-- C40, the part that holds: an operation that rejects its arguments, or whose run hook overwrites the result array with the same
contents each time. -/
theorem C40_idempotent_partial (H : Hooks S) (L : Layout) (s : Bytes) (o : Obj S) (h : construct H L s = .ok o) (vs : List Value) (ha : o.args = .arr vs)
    (hr : (∃ st, H.parse H.init vs = (st, .ok false)) ∨
      ∃ st st' ws b, H.parse H.init vs = (st, .ok true) ∧ H.run st [] = (st', ws, .ok b) ∧ ∃ st'', H.run st' ws = (st'', ws, .ok b)) :
    ∃ t, (session H o [.start, .start]).2 = [.ok (.text t), .ok (.text t)] := by
  rcases hr with ⟨st, hr⟩ | ⟨st, st', ws, b, hr, h1, st'', h2⟩
  · rw [(C37_rejected H L s o h vs ha st hr _).1]
    exact ⟨none, rfl⟩
  · rw [C37_accepted H L s o h vs ha st hr]
    cases b <;> simp only [accepted, h1, h2] <;> exact ⟨_, rfl⟩

/-- an operation that replaces the results -/
example : ∃ (H : Hooks Unit) (st st' : Unit) (ws : List Value) (b : Bool), H.parse H.init [] = (st, .ok true) ∧ H.run st [] = (st', ws, .ok b) ∧
    ∃ st'', H.run st' ws = (st'', ws, .ok b) :=
  ⟨⟨(), fun _ _ => ((), .ok true), fun _ => .ok 1, fun _ _ => ((), [.bool true], .ok true)⟩, (), (), [.bool true], true, rfl, rfl, (), rfl⟩

/-! ### C41 -/

/-- C41. The entry points are functions of the argument text: two calls with the same text give the same result wherever the text lies in
memory, if both string literals of the parser lie below the text (cf. C25). Each call constructs its own object, so earlier calls have no
influence (in the model this is so by construction: `opGas` and `opRun` have no state). -/
theorem C41_function (H : Hooks S) (L L' : Layout) (hL : L.Good) (hL' : L'.Good) (s : Bytes) (hlen : s.length ≤ 1073643498) :
    opGas H L s = opGas H L' s ∧ opRun H L s = opRun H L' s := by
  have hl : (cstr s).length ≤ 1073643498 := le_trans (List.takeWhile_prefix _).length_le hlen
  have : parse L (cstr s) = parse L' (cstr s) := by
    rcases C25_layout_partial L L' hL' (cstr s) hl with h | ⟨_, h⟩
    · exact h
    · rcases C25_layout_partial L' L hL (cstr s) hl with h' | ⟨_, h'⟩
      · exact h'.symm
      · rw [h, h']
  simp [opGas, opRun, construct, this]

/-- C41, any layouts: for texts without the letters `t` and `f`. -/
theorem C41_no_letters (H : Hooks S) (L L' : Layout) (s : Bytes) (hlen : s.length ≤ 1073643498) (ht : 116 ∉ s) (hf : 102 ∉ s) :
    opGas H L s = opGas H L' s ∧ opRun H L s = opRun H L' s := by
  have hpre : cstr s <+: s := List.takeWhile_prefix _
  have : parse L (cstr s) = parse L' (cstr s) :=
    C25_no_letters_partial L L' _ (le_trans hpre.length_le hlen) (fun h => ht (hpre.subset h)) (fun h => hf (hpre.subset h))
  simp [opGas, opRun, construct, this]

/-- C41, limit: without that assumption on the layout the same text can make one call exit and another one succeed (the defect of C25):
`true`, which one layout rejects with exit status 87. -/
theorem C41_layout (H : Hooks S) (L L' : Layout) (hL : L.Good) (hL' : L'.bufEnd ≤ L'.rue) :
    opGas H L [116, 114, 117, 101] = .ub .badUnion ∧ opGas H L' [116, 114, 117, 101] = .exit 87 := by
  obtain ⟨h1, h2⟩ := C25_layout_false L L' hL hL' []
  rw [List.append_nil] at h1 h2
  have hc : cstr [116, 114, 117, 101] = [116, 114, 117, 101] := by decide
  constructor
  · simp [opGas, hc, construct_of h1, getGas, check, copyTop, Value.toArray]
  · simp [opGas, hc, construct, h2]

example : Layout.Good ⟨100, 0, 50⟩ ∧ Layout.Good ⟨200, 10, 20⟩ ∧ (⟨10, 50, 60⟩ : Layout).bufEnd ≤ (⟨10, 50, 60⟩ : Layout).rue := by
  refine ⟨?_, ?_, ?_⟩ <;> simp [Layout.Good]

/-! ### The theorems applied to `demo` and the texts `[]` and `[true]` -/

/-- the object made from `[]`: the parse hook rejects -/
theorem demo_empty : ∃ o, construct demo ⟨100, 0, 50⟩ [91, 93] = .ok o ∧ o.args = .arr [] := ⟨_, rfl, rfl⟩

/-- the object made from `[true]`: the parse hook accepts -/
theorem demo_true : ∃ o, construct demo ⟨100, 0, 50⟩ [91, 116, 114, 117, 101, 93] = .ok o ∧ o.args = .arr [.bool true] := ⟨_, rfl, rfl⟩

example : ∃ o, construct demo ⟨100, 0, 50⟩ [91, 116, 114, 117, 101, 93] = .ok o ∧ ((session demo o [.getGas, .start, .getGas]).1.calls.filter isParse).length ≤ 1 := by
  obtain ⟨o, h, _⟩ := demo_true
  exact ⟨o, h, C36_once_partial demo (fun st vs => ⟨_, rfl⟩) _ _ o h _⟩

example : ∃ o, construct demo ⟨100, 0, 50⟩ [91, 116, 114, 117, 101, 93] = .ok o ∧
    ((∀ c ∈ (session demo o [.getGas, .start]).1.calls, ∃ r, c = .parse r ∧ ∀ b, r ≠ .ok b) ∨
    ∃ pre post b, (session demo o [.getGas, .start]).1.calls = pre ++ .parse (.ok b) :: post ∧ (∀ c ∈ pre, ∃ r, c = .parse r ∧ ∀ b, r ≠ .ok b) ∧
      ∀ c ∈ post, ∀ r, c ≠ .parse r) := by
  obtain ⟨o, h, _⟩ := demo_true
  exact ⟨o, h, C36_returns_once demo _ _ o h _⟩

example : ∃ o, construct demo ⟨100, 0, 50⟩ [91, 93] = .ok o ∧ (session demo o [.start, .getGas]).2 = [.ok (.text none), .ok (.gas 1500)] := by
  obtain ⟨o, h, ha⟩ := demo_empty
  exact ⟨o, h, (C37_rejected demo _ _ o h [] ha 1 rfl _).1⟩

example : ∃ o, construct demo ⟨100, 0, 50⟩ [91, 116, 114, 117, 101, 93] = .ok o ∧
    (start demo { o with parsed := true, success := true }).2 = .ok (some (Value.print (.arr [.str [120]]))) := by
  obtain ⟨o, h, ha⟩ := demo_true
  refine ⟨o, h, ?_⟩
  cases h
  exact (C38_complete demo _ rfl rfl [] rfl 0 [.str [120]] rfl [.str [120]] (.arr rfl (by
    intro i v j h1 h2
    match i with
    | 0 => simp at h1 h2; subst h1; subst h2; exact .str
    | i + 1 => simp at h1)) (.arr (by simp; exact .str))).1

example := C39_outcomes demo ⟨100, 0, 50⟩ [91, 116, 114, 117, 101, 93] (by decide)

example := C41_function demo ⟨100, 0, 50⟩ ⟨200, 10, 20⟩ (by simp [Layout.Good]) (by simp [Layout.Good]) [91, 116, 114, 117, 101, 93] (by decide)

example := C41_no_letters demo ⟨100, 0, 50⟩ ⟨10, 50, 60⟩ [91, 53, 93] (by decide) (by decide) (by decide)

end Eni.Props
