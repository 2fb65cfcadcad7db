import Verif.Props.EniMem
import Verif.Spec.Session
import Mathlib.Algebra.BigOperators.Group.List.Basic
/-!
# Calls in one process: C95, C96
-/
namespace Eni.Props
open Spec Owner

/-- the state of a process after any calls -/
theorem session_idle (grow : Nat → Bool) (L : Json.Layout) : ∀ (cs : List Call) {l : Left} {k : Nat}, Idle l k →
    (∀ {l' os}, session grow L l cs = .ok (l', os) → ∃ k', Idle l' k') ∧
    (session grow L l cs >>= fun x => .ok x.2) = apart grow L cs ∧
    ∀ {l' os k'}, session grow L l cs = .ok (l', os) → Idle l' k' → ∃ ms, List.Forall₂ (Leaves grow L) cs ms ∧ k' + l'.blocks = k + l.blocks + ms.sum := by
  intro cs
  induction cs with
  | nil =>
    intro l k i
    refine ⟨fun h => ?_, rfl, fun h i' => ?_⟩
    · simp only [session, Res.ok.injEq, Prod.mk.injEq] at h
      exact ⟨k, h.1 ▸ i⟩
    · simp only [session, Res.ok.injEq, Prod.mk.injEq] at h
      obtain ⟨rfl, _⟩ := h
      refine ⟨[], .nil, ?_⟩
      have h1 := i.total
      have h2 := i'.total
      simp only [List.sum_nil]
      omega
  | cons c cs ih =>
    intro l k i
    rcases call_any grow L c with ⟨o, m, hc⟩ | ⟨r, hr, hc⟩
    · obtain ⟨l1, k1, e1, i1, b1⟩ := hc i
      obtain ⟨l0, k0, e0, i0, b0⟩ := hc Idle.init
      obtain ⟨h1, h2, h3⟩ := ih i1
      have ha : alone grow L c = .ok o := by simp [alone, e0]
      refine ⟨fun h => ?_, ?_, fun h i' => ?_⟩
      · simp only [session, e1, Res.ok_bind] at h
        obtain ⟨⟨l2, os2⟩, e2, h⟩ := Res.bind_eq_ok.mp h
        simp only [Res.ok.injEq, Prod.mk.injEq] at h
        obtain ⟨rfl, _⟩ := h
        exact h1 e2
      · simp only [session, e1, Res.ok_bind, apart, ha, ← h2]
        cases session grow L l1 cs <;> rfl
      · simp only [session, e1, Res.ok_bind] at h
        obtain ⟨⟨l2, os2⟩, e2, h⟩ := Res.bind_eq_ok.mp h
        simp only [Res.ok.injEq, Prod.mk.injEq] at h
        obtain ⟨rfl, _⟩ := h
        obtain ⟨ms, f, hm⟩ := h3 e2 i'
        refine ⟨m :: ms, .cons ⟨l0, o, e0, ?_⟩ f, ?_⟩
        · rw [i0.total]
          simp only [Left.init] at b0
          omega
        · simp only [List.sum_cons]
          omega
    · have e1 := hc i
      have e0 := hc Idle.init
      cases r with
      | ok x => exact absurd rfl (hr x)
      | _ =>
        refine ⟨fun h => ?_, ?_, fun h _ => ?_⟩
        · simp [session, e1] at h
        · simp [session, e1, apart, alone, e0]
        · simp [session, e1] at h

/-! ### C95 -/

/-- C95: whatever a process calls, with whatever arguments, each call gives what it would give in a process of its own. If one call ends the process or is
undefined behaviour, so it is when the calls are made apart. -/
theorem C95_independent (grow : Nat → Bool) (L : Json.Layout) (cs : List Call) :
    (session grow L Left.init cs >>= fun x => .ok x.2) = apart grow L cs := (session_idle grow L cs Idle.init).2.1

/-- C95, what this means for arrays of arguments: after any calls that returned, the next one returns what the hooks make of its arguments. -/
theorem C95_calls (grow : Nat → Bool) (L : Json.Layout) (hL : L.Good) (cs : List Call) {l : Left} {os : List Out} (hs : session grow L Left.init cs = .ok (l, os))
    (O : OpM S) {w t r : Bytes} {js : List JV} (hw : WS w) (ht : JText t (.arr js)) (h0 : 0 ∉ w ++ (t ++ r)) :
    (runAt grow L O l (w ++ (t ++ r)) >>= fun x => .ok x.2) = (expectRun O (.arr js) >>= fun x => .ok (retMap asText x)) ∧
    (gasAt grow L O l (w ++ (t ++ r)) >>= fun x => .ok x.2) = expectGas O (.arr js) := by
  obtain ⟨k, i⟩ := (session_idle grow L cs Idle.init).1 hs
  obtain ⟨h1, h2⟩ := C93_calls grow L hL O hw ht h0
  have key : ∀ (g : Bool), (callAt grow L l ⟨S, O, g, w ++ (t ++ r)⟩ >>= fun x => .ok x.2) = alone grow L ⟨S, O, g, w ++ (t ++ r)⟩ := by
    intro g
    rcases call_any grow L ⟨S, O, g, w ++ (t ++ r)⟩ with ⟨o, m, hc⟩ | ⟨r, hr, hc⟩
    · obtain ⟨l1, k1, e1, _⟩ := hc i
      obtain ⟨l0, k0, e0, _⟩ := hc Idle.init
      simp [alone, e1, e0]
    · simp only [alone, hc i, hc Idle.init]
  have k1 := key false
  have k2 := key true
  simp only [alone, callAt, Bool.false_eq_true, if_false, if_true] at k1 k2
  refine ⟨?_, ?_⟩
  · rw [← h1, runM]
    cases hx : runAt grow L O l (w ++ (t ++ r)) <;> cases hy : runAt grow L O Left.init (w ++ (t ++ r)) <;> simp_all
  · rw [← h2, gasM]
    cases hx : gasAt grow L O l (w ++ (t ++ r)) <;> cases hy : gasAt grow L O Left.init (w ++ (t ++ r)) <;> simp_all

example := C95_calls (fun _ => true) ⟨100, 0, 50⟩ layout_x [] rfl reverseM (w := [32]) (r := [33]) (by simp [WS]) text_x (by decide)

/-! ### C96 -/

/-- C96, the amount: what calls leave in a process is the sum of what they leave apart; nothing is ever used again or released later. -/
theorem C96_sum_partial (grow : Nat → Bool) (L : Json.Layout) (cs : List Call) {l : Left} {os : List Out} (hs : session grow L Left.init cs = .ok (l, os)) :
    ∃ ms, List.Forall₂ (Leaves grow L) cs ms ∧ Left.total l = ms.sum := by
  obtain ⟨h1, _, h3⟩ := session_idle grow L cs Idle.init
  obtain ⟨k, i⟩ := h1 hs
  obtain ⟨ms, f, hm⟩ := h3 hs i
  refine ⟨ms, f, ?_⟩
  rw [i.total]
  simp only [Left.init] at hm
  omega

example := C96_sum_partial (fun _ => true) ⟨100, 0, 50⟩ [] rfl

theorem leaves_unique {grow : Nat → Bool} {L : Json.Layout} {c : Call} {m m' : Nat} (h : Leaves grow L c m) (h' : Leaves grow L c m') : m = m' := by
  obtain ⟨l, o, e, rfl⟩ := h
  obtain ⟨l', o', e', rfl⟩ := h'
  rw [e] at e'
  cases e'
  rfl

theorem leaves_replicate {grow : Nat → Bool} {L : Json.Layout} {c : Call} {m : Nat} (hm : Leaves grow L c m) : ∀ (n : Nat) {ms : List Nat},
    List.Forall₂ (Leaves grow L) (List.replicate n c) ms → ms.sum = n * m := by
  intro n
  induction n with
  | zero => intro ms f; cases f; simp
  | succ n ih =>
    intro ms f
    rw [List.replicate_succ] at f
    cases f with
    | cons h1 h2 => rw [List.sum_cons, ih h2, leaves_unique h1 hm, Nat.succ_mul, Nat.add_comm]

/-- C96, repeating a call `n` times leaves `n` times the amount. -/
theorem C96_repeat_partial (grow : Nat → Bool) (L : Json.Layout) (c : Call) (m : Nat) (hm : Leaves grow L c m) (n : Nat) :
    ∃ l os, session grow L Left.init (List.replicate n c) = .ok (l, os) ∧ Left.total l = n * m := by
  obtain ⟨l0, o, e0, _⟩ := id hm
  have ha : ∀ n, apart grow L (List.replicate n c) = .ok (List.replicate n o) := by
    intro n
    induction n with
    | zero => rfl
    | succ n ih => simp [List.replicate_succ, apart, alone, e0, ih]
  have h := C95_independent grow L (List.replicate n c)
  rw [ha] at h
  obtain ⟨⟨l, os⟩, e, _⟩ := Res.bind_eq_ok.mp h
  refine ⟨l, os, e, ?_⟩
  obtain ⟨ms, f, ht⟩ := C96_sum_partial grow L _ e
  rw [ht]
  exact leaves_replicate hm n f

/-- a thousand calls of `reverse_gas(["x"])` -/
example : ∃ m l os, session (fun _ => true) ⟨100, 0, 50⟩ Left.init (List.replicate 1000 ⟨_, reverseM, true, [91, 34, 120, 34, 93]⟩) = .ok (l, os) ∧
    Left.total l = 1000 * m := by
  obtain ⟨l1, l2, e1, e2, _⟩ := C93_reverse (fun _ => true) ⟨100, 0, 50⟩ layout_x (w := []) (r := []) [120] (by simp [WS]) text_x (by decide)
  have e2 : gasAt (fun _ => true) ⟨100, 0, 50⟩ reverseM Left.init [91, 34, 120, 34, 93] = _ := e2
  have hl : Leaves (fun _ => true) ⟨100, 0, 50⟩ ⟨_, reverseM, true, [91, 34, 120, 34, 93]⟩ (Left.total l2) :=
    ⟨l2, .gas (.value (([120] : Bytes).length * 10)), by simp only [callAt, e2, if_true, Res.ok_bind], rfl⟩
  obtain ⟨l, os, h⟩ := C96_repeat_partial _ _ _ _ hl 1000
  exact ⟨_, l, os, h⟩

/-- C96 is false of the code: `n` calls of `reverse_run` with `["x"]` leave `8 n` objects even if the caller releases all `n` texts. -/
theorem C96_reverse_false (grow : Nat → Bool) (L : Json.Layout) (hL : L.Good) (n : Nat) :
    ∃ l os, session grow L Left.init (List.replicate n ⟨_, reverseM, false, [91, 34, 120, 34, 93]⟩) = .ok (l, os) ∧ 8 * n + (os.map handed).sum ≤ Left.total l := by
  obtain ⟨l1, x, e1, h1⟩ := C94_reverse_false grow L hL
  have hc : callAt grow L Left.init ⟨_, reverseM, false, [91, 34, 120, 34, 93]⟩ = .ok (l1, .text (.value (some x))) := by
    have e1 : runAt grow L reverseM Left.init [91, 34, 120, 34, 93] = .ok (l1, .value (some x)) := e1
    simp [callAt, e1]
  obtain ⟨l, os, e, h⟩ := C96_repeat_partial grow L ⟨_, reverseM, false, [91, 34, 120, 34, 93]⟩ (Left.total l1) ⟨l1, _, hc, rfl⟩ n
  refine ⟨l, os, e, ?_⟩
  have hos : os = List.replicate n (.text (.value (some x))) := by
    have h := C95_independent grow L (List.replicate n ⟨_, reverseM, false, [91, 34, 120, 34, 93]⟩)
    rw [e] at h
    have ha : ∀ n, apart grow L (List.replicate n ⟨_, reverseM, false, [91, 34, 120, 34, 93]⟩) = .ok (List.replicate n (.text (.value (some x)))) := by
      intro n
      induction n with
      | zero => rfl
      | succ n ih => simp [List.replicate_succ, apart, alone, hc, ih]
    rw [ha] at h
    simpa using h
  rw [h, hos]
  simp only [List.map_replicate, handed, List.sum_replicate_nat, Nat.mul_one]
  have := Nat.mul_le_mul_left n h1
  omega

/-- C96, when it holds: calls that return, of operations without results and on clean arguments (C91), leave only what the caller got. -/
theorem C96_clean_partial (grow : Nat → Bool) (L : Json.Layout) (hL : L.Good) (cs : List Call)
    (hc : ∀ c ∈ cs, ∃ w t r js st, c.arg = w ++ (t ++ r) ∧ WS w ∧ JText t (.arr js) ∧ 0 ∉ c.arg ∧ Clean (.arr js) ∧ reads (.arr js) c.op.parse = .ok (st, true) ∧
      (c.gas = false → c.op.run st = ([], .ok true)) ∧ (c.gas = true → ∃ n, c.op.gas st = .ok n)) :
    ∃ l os, session grow L Left.init cs = .ok (l, os) ∧ Left.total l = cs.length ∧ (os.map handed).sum = cs.length := by
  have each : ∀ c ∈ cs, ∃ l o, callAt grow L Left.init c = .ok (l, o) ∧ Left.total l = 1 ∧ handed o = 1 := by
    intro c hm
    obtain ⟨w, t, r, js, st, e, hw, ht, h0, hcl, hp, hr, hg⟩ := hc c hm
    obtain ⟨S, O, g, s⟩ := c
    simp only at e h0 hp hr hg
    subst e
    obtain ⟨k1, k2⟩ := C94_iff_partial grow L hL O hw ht h0 st hp
    cases g with
    | false =>
      obtain ⟨l, x, e1, e2⟩ := k1 [] (hr rfl)
      have e1 : runAt grow L O Left.init (w ++ (t ++ r)) = .ok (l, .value (some x)) := e1
      exact ⟨l, .text (.value (some x)), by simp [callAt, e1], e2.mpr ⟨hcl, rfl⟩, rfl⟩
    | true =>
      obtain ⟨n, hn⟩ := hg rfl
      obtain ⟨l, e1, e2⟩ := k2 n hn
      have e1 : gasAt grow L O Left.init (w ++ (t ++ r)) = .ok (l, .value n) := e1
      exact ⟨l, .gas (.value n), by simp [callAt, e1], e2.mpr hcl, rfl⟩
  have ha : ∃ os, apart grow L cs = .ok os ∧ (os.map handed).sum = cs.length := by
    clear hc
    induction cs with
    | nil => exact ⟨[], rfl, rfl⟩
    | cons c cs ih =>
      obtain ⟨os, e, h⟩ := ih (fun c hm => each c (by simp [hm]))
      obtain ⟨l, o, e1, _, e3⟩ := each c (by simp)
      exact ⟨o :: os, by simp [apart, alone, e1, e], by simp only [List.map_cons, List.sum_cons, e3, h, List.length_cons]; omega⟩
  obtain ⟨os, e, ho⟩ := ha
  have h := C95_independent grow L cs
  rw [e] at h
  obtain ⟨⟨l, os'⟩, es, h⟩ := Res.bind_eq_ok.mp h
  simp only [Res.ok.injEq] at h
  subst h
  refine ⟨l, os', es, ?_, ho⟩
  obtain ⟨ms, f, ht⟩ := C96_sum_partial grow L cs es
  rw [ht]
  clear * - f each
  induction f with
  | nil => rfl
  | @cons c m cs ms h1 _ ih =>
    obtain ⟨l, o, e1, e2, _⟩ := each c (by simp)
    rw [List.sum_cons, ih (fun c hm => each c (by simp [hm])), leaves_unique h1 ⟨l, o, e1, e2⟩, List.length_cons, Nat.add_comm]

/-- two different calls in one process: `reverse_gas(["x"])`, then `reverse_run(["x"])` -/
example : ∃ l os, session (fun _ => true) ⟨100, 0, 50⟩ Left.init [⟨_, reverseM, true, [91, 34, 120, 34, 93]⟩, ⟨_, reverseM, false, [91, 34, 120, 34, 93]⟩] = .ok (l, os) ∧
    os.head? = some (.gas (.value 10)) := by
  have hw : WS [] := by simp [WS]
  have hs : JText [34, 120, 34] (.str [120]) := .str (.raw (by decide) (by decide) .nil)
  have ht : JText [91, 34, 120, 34, 93] (.arr [.str [120]]) := .arr (Elems.one hw hs hw)
  have hL : Json.Layout.Good ⟨100, 0, 50⟩ := by simp [Json.Layout.Good]
  obtain ⟨l1, l2, e1, e2, _⟩ := C93_reverse (fun _ => true) ⟨100, 0, 50⟩ hL (w := []) (r := []) [120] hw ht (by decide)
  have h := C95_independent (fun _ => true) ⟨100, 0, 50⟩ [⟨_, reverseM, true, [91, 34, 120, 34, 93]⟩, ⟨_, reverseM, false, [91, 34, 120, 34, 93]⟩]
  have e1 : runAt (fun _ => true) ⟨100, 0, 50⟩ reverseM Left.init [91, 34, 120, 34, 93] = _ := e1
  have e2 : gasAt (fun _ => true) ⟨100, 0, 50⟩ reverseM Left.init [91, 34, 120, 34, 93] = _ := e2
  simp only [apart, alone, callAt, e1, e2, Bool.false_eq_true, if_false, if_true, Res.ok_bind] at h
  obtain ⟨⟨l, os⟩, e, h⟩ := Res.bind_eq_ok.mp h
  simp only [Res.ok.injEq] at h
  exact ⟨l, os, e, by rw [h]; rfl⟩

end Eni.Props
