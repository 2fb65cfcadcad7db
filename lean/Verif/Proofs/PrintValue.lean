import Verif.Model.PrintValue
import Verif.Spec.PrintValue
/-! # Lemmas for C130 -/
namespace Eni.Holder
open Spec.Shown

theorem hexChar_inj : ∀ a b : Fin 16, hexChar a.val = hexChar b.val → a = b := by decide

theorem hexRev_ne (n : Nat) : hexRev n ≠ [] := by
  rw [hexRev]; split <;> simp

theorem hexRev_inj (n : Nat) : ∀ m, hexRev n = hexRev m → n = m := by
  induction n using Nat.strongRecOn with
  | _ n ih =>
    intro m h
    rw [hexRev.eq_def n, hexRev.eq_def m] at h
    by_cases h1 : n < 16 <;> by_cases h2 : m < 16 <;> simp only [h1, h2, dite_true, dite_false] at h
    · have := hexChar_inj ⟨n, h1⟩ ⟨m, h2⟩ (by simpa using h)
      simpa using this
    · exact absurd (List.cons.inj h).2.symm (hexRev_ne _)
    · exact absurd (List.cons.inj h).2 (hexRev_ne _)
    · obtain ⟨h1, h2⟩ := List.cons.inj h
      have e1 := hexChar_inj ⟨n % 16, Nat.mod_lt _ (by omega)⟩ ⟨m % 16, Nat.mod_lt _ (by omega)⟩ h1
      have e2 := ih (n / 16) (by omega) _ h2
      simp only [Fin.mk.injEq] at e1
      omega

theorem ptrText_inj (n m : Nat) (h : ptrText n = ptrText m) : n = m := by
  unfold ptrText at h
  split at h <;> split at h
  · omega
  · simp at h
  · simp at h
  · exact hexRev_inj n m (by simpa using h)

theorem code_inj (k l : Kind) (h : Char.ofNat (48 + k.code) = Char.ofNat (48 + l.code)) : k = l := by
  revert h; cases k <;> cases l <;> decide

theorem setBool_small {w : Nat} (b : Bool) (h : w < 256) : setBool w b = b.toNat := by
  rw [setBool, Nat.div_eq_of_lt h]; omega

theorem getBool_setBool (w : Nat) (b : Bool) : getBool (setBool w b) = b := by
  cases b <;> simp [getBool, setBool] <;> omega

/-- The contents that the bytes stand for. -/
def content (v : Val) : Content :=
  match v.kind with
  | .undef => .nothing
  | .bool => .truth (getBool v.word)
  | k => .heap k.code

/-- The statement without bytes and addresses. -/
def toAct : Stmt → Act
  | .undef => .undef
  | .bool b => .bool b
  | .new k => .new k.code
  | .copy i => .copy i
  | .move i => .move i
  | .assign i j => .assign i j
  | .delegate i k => .delegate i k.code

def Rep (v : Val) (s : Var) : Prop := s.content = content v ∧ (s.used = false → v.kind.isPtr = false ∧ v.word = s.last.toNat)

theorem isHeap_content (v : Val) : (content v).isHeap = v.kind.isPtr := by
  obtain ⟨k, w⟩ := v; cases k <;> rfl

theorem content_store {w : Nat} {s : Val} (a : Nat) : content ⟨s.kind, store w s a⟩ = content s := by
  obtain ⟨k, x⟩ := s
  cases k <;> simp [content, store, getBool_setBool]

theorem small_toNat (b : Bool) : b.toNat < 2 := by cases b <;> decide

theorem store_small {w : Nat} {s : Val} (a : Nat) (b : Bool) (hw : w = b.toNat) (hs : s.kind.isPtr = false) : store w s a = ((content s).left b).toNat := by
  have := small_toNat b
  obtain ⟨k, x⟩ := s
  cases k <;> simp only [Kind.isPtr, Bool.true_eq_false, reduceCtorEq] at hs
  · simp only [store, content, Content.left]; rw [setBool_small _ (by omega)]
  · exact hw

/-- `Rep` for lists by index. -/
def At (vs : List Val) (ss : List Var) : Prop := vs.length = ss.length ∧ ∀ (i : Nat) (v : Val) (s : Var), vs[i]? = some v → ss[i]? = some s → Rep v s

theorem At.get {vs : List Val} {ss : List Var} (h : At vs ss) {i : Nat} {v : Val} (hv : vs[i]? = some v) : ∃ s, ss[i]? = some s ∧ Rep v s := by
  have hi : i < ss.length := by
    have := (List.getElem?_eq_some_iff.mp hv).1
    have := h.1
    omega
  exact ⟨ss[i], List.getElem?_eq_getElem hi, h.2 i v _ hv (List.getElem?_eq_getElem hi)⟩

theorem At.push {vs : List Val} {ss : List Var} (h : At vs ss) {v : Val} {s : Var} (hr : Rep v s) : At (vs ++ [v]) (ss ++ [s]) := by
  refine ⟨by simp [h.1], fun i x y hx hy => ?_⟩
  have hl := h.1
  by_cases hi : i < vs.length
  · rw [List.getElem?_append_left hi] at hx
    rw [List.getElem?_append_left (by omega)] at hy
    exact h.2 i x y hx hy
  · rw [List.getElem?_append_right (by omega)] at hx
    rw [List.getElem?_append_right (by omega)] at hy
    rw [← hl] at hy
    cases hj : i - vs.length with
    | zero => rw [hj] at hx hy; simp at hx hy; subst hx hy; exact hr
    | succ n => rw [hj] at hx; simp at hx

theorem At.put {vs : List Val} {ss : List Var} (h : At vs ss) (i : Nat) {v : Val} {s : Var} (hr : Rep v s) : At (vs.set i v) (ss.set i s) := by
  refine ⟨by simp [h.1], fun j x y hx hy => ?_⟩
  rw [List.getElem?_set] at hx hy
  have hl := h.1
  by_cases hij : i = j
  · rw [if_pos hij] at hx hy
    split at hx
    · split at hy
      · simp at hx hy; subst hx hy; exact hr
      · simp at hy
    · simp at hx
  · rw [if_neg hij] at hx hy
    exact h.2 j x y hx hy

theorem rep_ptr {k : Kind} (hk : k.isPtr = true) (a : Nat) : Rep ⟨k, a⟩ ⟨.heap k.code, true, false⟩ := by
  refine ⟨?_, by simp⟩
  cases k <;> simp_all [content, Kind.isPtr]

theorem rep_store {v s : Val} {t u : Var} (ht : Rep v t) (hu : Rep s u) (a : Nat) :
    Rep ⟨s.kind, store v.word s a⟩ ⟨u.content, t.used || u.content.isHeap, u.content.left t.last⟩ := by
  refine ⟨by rw [content_store]; exact hu.1, fun h => ?_⟩
  simp only [Bool.or_eq_false_iff] at h
  rw [hu.1, isHeap_content] at h
  refine ⟨h.2, ?_⟩
  show _ = (u.content.left t.last).toNat
  rw [hu.1]
  exact store_small a _ (ht.2 h.1).2 h.2

theorem step_at {vs vs' : List Val} {ss : List Var} (h : At vs ss) {a : Nat} {st : Stmt} (hs : step vs a st = some vs') :
    ∃ ss', act ss (toAct st) = some ss' ∧ At vs' ss' := by
  cases st with
  | undef => simp only [step, Option.some.injEq] at hs; subst hs; exact ⟨_, rfl, h.push ⟨rfl, fun _ => ⟨rfl, rfl⟩⟩⟩
  | bool b =>
    simp only [step, Option.some.injEq] at hs; subst hs
    refine ⟨_, rfl, h.push ⟨by simp [content, getBool_setBool], fun _ => ⟨rfl, ?_⟩⟩⟩
    exact setBool_small b (by omega)
  | new k =>
    simp only [step] at hs
    split at hs
    · simp only [Option.some.injEq] at hs; subst hs
      rename_i hk
      exact ⟨_, rfl, h.push (rep_ptr hk a)⟩
    · simp at hs
  | copy i =>
    simp only [step, Option.map_eq_some_iff] at hs
    obtain ⟨v, hv, rfl⟩ := hs
    obtain ⟨s, h1, h2⟩ := h.get hv
    refine ⟨ss ++ [⟨s.content, s.content.isHeap, s.content.left false⟩], by simp only [toAct, act, h1, Option.map_some], h.push ?_⟩
    have := rep_store (v := ⟨.undef, 0⟩) (t := ⟨.nothing, false, false⟩) ⟨rfl, fun _ => ⟨rfl, rfl⟩⟩ h2 a
    simpa using this
  | move i =>
    simp only [step, Option.map_eq_some_iff] at hs
    obtain ⟨v, hv, rfl⟩ := hs
    obtain ⟨s, h1, h2⟩ := h.get hv
    have hr : Rep ⟨.undef, v.word⟩ ⟨.nothing, s.used, s.last⟩ := ⟨rfl, fun hu => ⟨rfl, (h2.2 hu).2⟩⟩
    exact ⟨ss.set i ⟨.nothing, s.used, s.last⟩ ++ [s], by simp only [toAct, act, h1, Option.map_some], (h.put i hr).push h2⟩
  | assign i j =>
    simp only [step] at hs
    split at hs
    · rename_i v s hv hw
      simp only [Option.some.injEq] at hs; subst hs
      obtain ⟨t, h1, h2⟩ := h.get hv
      obtain ⟨u, h3, h4⟩ := h.get hw
      exact ⟨_, by simp only [toAct, act, h1, h3], h.put i (rep_store h2 h4 a)⟩
    · simp at hs
  | delegate i k =>
    simp only [step] at hs
    split at hs
    · rename_i v hv
      split at hs
      · rename_i hk
        simp only [Option.some.injEq] at hs; subst hs
        obtain ⟨t, h1, h2⟩ := h.get hv
        refine ⟨_, by simp only [toAct, act, h1, Option.map_some], h.put i (rep_ptr ?_ a)⟩
        obtain ⟨_, rfl | rfl | rfl⟩ := hk <;> rfl
      · simp at hs
    · simp at hs

theorem run_at (p : List Stmt) : ∀ {vs vs' : List Val} {ss : List Var}, At vs ss → ∀ {as : List Nat}, run vs p as = some vs' →
    ∃ ss', acts ss (p.map toAct) = some ss' ∧ At vs' ss' := by
  induction p with
  | nil =>
    intro vs vs' ss h as hr
    cases as with
    | nil => simp only [run, Option.some.injEq] at hr; subst hr; exact ⟨ss, rfl, h⟩
    | cons => simp [run] at hr
  | cons st p ih =>
    intro vs vs' ss h as hr
    cases as with
    | nil => simp [run] at hr
    | cons a as =>
      simp only [run] at hr
      split at hr
      · rename_i w hw
        obtain ⟨s1, h1, h2⟩ := step_at h hw
        obtain ⟨s2, h3, h4⟩ := ih h2 hr
        exact ⟨s2, by simp only [List.map_cons, acts, h1, h3], h4⟩
      · simp at hr

end Eni.Holder
