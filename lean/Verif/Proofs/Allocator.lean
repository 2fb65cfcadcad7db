import Verif.Spec.Allocator
/-!
# The allocator hands out arrays
-/
namespace Eni.Alloc
open Spec

variable {α : Type}

/-- What a pointer stands for. -/
def Means (cfg : Cfg α) (m : Mem α) : Ptr → Arr α → Prop
  | none, .null => True
  | some b, .arr n f => b < m.next ∧ (∃ bytes, m.size b = some bytes ∧ n * cfg.sz ≤ bytes) ∧ ∀ i, i < n → m.obj b (i * cfg.sz) = f i
  | some b, .gone => b < m.next ∧ m.size b = none
  | _, _ => False

structure Rel (cfg : Cfg α) (s : St α) (vs : List (Arr α)) : Prop where
  len : s.vars.length = vs.length
  means : ∀ {x : Nat} {p : Ptr} {v : Arr α}, s.vars[x]? = some p → vs[x]? = some v → Means cfg s.mem p v
  apart : ∀ {x y b : Nat}, s.vars[x]? = some (some b) → s.vars[y]? = some (some b) → x = y
  fresh : ∀ b, s.mem.next ≤ b → s.mem.size b = none ∧ ∀ o, s.mem.obj b o = none
  count : heldBlocks s.mem = Arr.held vs

theorem Rel.init (cfg : Cfg α) : Rel cfg ⟨Mem.init, []⟩ [] where
  len := rfl
  means h := by simp at h
  apart h := by simp at h
  fresh := by simp [Mem.init]
  count := rfl

theorem held_append (vs ws : List (Arr α)) : Arr.held (vs ++ ws) = Arr.held vs + Arr.held ws := by
  induction vs with
  | nil => simp [Arr.held]
  | cons v vs ih => cases v <;> simp [Arr.held, ih] <;> omega

theorem held_set_arr {vs : List (Arr α)} : ∀ {x n : Nat} {f : Nat → Option α}, vs[x]? = some (.arr n f) → ∀ f', Arr.held (vs.set x (.arr n f')) = Arr.held vs := by
  induction vs with
  | nil => simp
  | cons v vs ih =>
    intro x n f h f'
    cases x with
    | zero =>
      simp only [List.getElem?_cons_zero, Option.some.injEq] at h
      subst h
      simp [Arr.held]
    | succ x =>
      simp only [List.getElem?_cons_succ] at h
      have := ih h f'
      cases v <;> simp [Arr.held, this]

theorem held_set_gone {vs : List (Arr α)} : ∀ {x n : Nat} {f : Nat → Option α}, vs[x]? = some (.arr n f) → Arr.held (vs.set x .gone) + 1 = Arr.held vs := by
  induction vs with
  | nil => simp
  | cons v vs ih =>
    intro x n f h
    cases x with
    | zero =>
      simp only [List.getElem?_cons_zero, Option.some.injEq] at h
      subst h
      simp [Arr.held]
    | succ x =>
      simp only [List.getElem?_cons_succ] at h
      have := ih h
      cases v <;> simp [Arr.held] <;> omega

theorem filter_release {p q : Nat → Bool} {b n : Nat} (hb : b < n) (hp : p b = true) (hq : q b = false) (h : ∀ c, c ≠ b → q c = p c) :
    ((List.range n).filter q).length + 1 = ((List.range n).filter p).length := by
  induction n with
  | zero => omega
  | succ n ih =>
    rw [List.range_succ, List.filter_append, List.filter_append, List.length_append, List.length_append]
    by_cases hn : b = n
    · subst hn
      have : (List.range b).filter q = (List.range b).filter p := List.filter_congr (by
        intro c hc
        exact h c (by have := List.mem_range.mp hc; omega))
      simp [hp, hq, this]
    · have := ih (by omega)
      simp only [List.filter_cons, List.filter_nil, h n (fun e => hn e.symm)]
      split <;> simp <;> omega

/-- Updating the objects of one block. -/
theorem Rel.update {cfg : Cfg α} {s : St α} {vs : List (Arr α)} (R : Rel cfg s vs) {x b n : Nat} {f f' : Nat → Option α} {o : Nat → Nat → Option α}
    (hx : s.vars[x]? = some (some b)) (hv : vs[x]? = some (.arr n f)) (h1 : ∀ c off, c ≠ b → o c off = s.mem.obj c off)
    (h2 : ∀ i, i < n → o b (i * cfg.sz) = f' i) : Rel cfg { s with mem := { s.mem with obj := o } } (vs.set x (.arr n f')) := by
  have hb := R.means hx hv
  refine ⟨by simpa using R.len, ?_, R.apart, ?_, ?_⟩
  · intro y p v hp hy
    by_cases hxy : x = y
    · subst hxy
      rw [List.getElem?_set_self (by have := (List.getElem?_eq_some_iff.mp hv).1; exact this)] at hy
      cases hy
      simp only at hp
      rw [hx] at hp
      cases hp
      exact ⟨hb.1, hb.2.1, h2⟩
    · rw [List.getElem?_set_ne hxy] at hy
      have hm := R.means hp hy
      cases p with
      | none => cases v <;> first | exact hm | exact absurd hm id
      | some c =>
        have hc : c ≠ b := by
          rintro rfl
          exact hxy (R.apart hx hp)
        cases v with
        | null => exact absurd hm id
        | arr n' f'' => exact ⟨hm.1, hm.2.1, fun i hi => (h1 c _ hc).trans (hm.2.2 i hi)⟩
        | gone => exact hm
  · intro c hc
    refine ⟨(R.fresh c hc).1, fun off => ?_⟩
    have hcb : c ≠ b := by
      rintro rfl
      have := hb.1
      simp only at hc
      omega
    exact (h1 c off hcb).trans ((R.fresh c hc).2 off)
  · rw [held_set_arr hv f']
    exact R.count

theorem place_of {cfg : Cfg α} {m : Mem α} {b n i bytes : Nat} (hs : m.size b = some bytes) (hn : n * cfg.sz ≤ bytes) (hi : i < n) :
    place cfg m (some b) i = .ok b := by
  have : i * cfg.sz + cfg.sz ≤ n * cfg.sz := by
    rw [← Nat.succ_mul]
    exact Nat.mul_le_mul_right _ hi
  simp only [place, hs]
  rw [if_pos (by omega)]

/-- The pointer behind an array. -/
theorem Rel.ptr {cfg : Cfg α} {s : St α} {vs : List (Arr α)} (R : Rel cfg s vs) {x : Nat} {v : Arr α} (hv : vs[x]? = some v) :
    ∃ p, s.vars[x]? = some p ∧ s.ptr x = .ok p ∧ Means cfg s.mem p v := by
  have hx : x < s.vars.length := by
    rw [R.len]
    exact (List.getElem?_eq_some_iff.mp hv).1
  refine ⟨s.vars[x], List.getElem?_eq_getElem hx, by simp [St.ptr, List.getElem?_eq_getElem hx], R.means (List.getElem?_eq_getElem hx) hv⟩

theorem mul_inj (cfg : Cfg α) {i j : Nat} : i * cfg.sz = j * cfg.sz ↔ i = j :=
  ⟨fun h => Nat.eq_of_mul_eq_mul_right cfg.sz_pos h, fun h => h ▸ rfl⟩

theorem construct_sim {cfg : Cfg α} {s : St α} {vs : List (Arr α)} (R : Rel cfg s vs) {x i n : Nat} {f : Nat → Option α} (hv : vs[x]? = some (.arr n f)) (hi : i < n)
    (a : α) : ∃ p m, s.ptr x = .ok p ∧ construct cfg s.mem p i a = .ok m ∧
      Rel cfg { s with mem := m } (vs.set x (.arr n fun j => if j = i then some a else f j)) := by
  obtain ⟨p, hx, hp, hm⟩ := R.ptr hv
  cases p with
  | none => exact absurd hm id
  | some b =>
    obtain ⟨hb, ⟨bytes, hs, hn⟩, ho⟩ := hm
    refine ⟨some b, _, hp, by rw [construct, place_of hs hn hi]; rfl, R.update hx hv ?_ ?_⟩
    · intro c off hc
      simp [hc]
    · intro j hj
      simp only [true_and, mul_inj, ho j hj]

theorem step_sim {cfg : Cfg α} {s : St α} {vs : List (Arr α)} (R : Rel cfg s vs) (op : AOp α) (hop : ∀ n g, op = .allocate n g → n ≤ maxSize cfg)
    {vs' : List (Arr α)} {r : ARep α} (h : arrStep cfg.dflt vs op = some (vs', r)) : ∃ s', step cfg s op = .ok (s', r) ∧ Rel cfg s' vs' := by
  cases op with
  | allocate n g =>
    simp only [arrStep, Option.some.injEq, Prod.mk.injEq] at h
    obtain ⟨rfl, rfl⟩ := h
    cases g with
    | false =>
      refine ⟨⟨s.mem, s.vars ++ [none]⟩, by simp [step, allocate, malloc], ?_⟩
      refine ⟨by simp [R.len], ?_, ?_, R.fresh, by simp [held_append, Arr.held, R.count]⟩
      · intro x p v hp hv
        rw [List.getElem?_append] at hp hv
        rw [R.len] at hp
        split at hp
        · rename_i hx
          rw [if_pos hx] at hv
          exact R.means hp hv
        · rename_i hx
          rw [if_neg hx] at hv
          obtain ⟨_, rfl⟩ := List.getElem?_eq_some_iff.mp hp
          obtain ⟨_, rfl⟩ := List.getElem?_eq_some_iff.mp hv
          simp [Means]
      · intro x y b h1 h2
        rw [List.getElem?_append] at h1 h2
        split at h1
        · split at h2
          · exact R.apart h1 h2
          · obtain ⟨_, h2⟩ := List.getElem?_eq_some_iff.mp h2
            simp at h2
        · obtain ⟨_, h1⟩ := List.getElem?_eq_some_iff.mp h1
          simp at h1
    | true =>
      have hw : w64 (n * cfg.sz) = n * cfg.sz := by
        have hn := hop n true rfl
        have := (Nat.le_div_iff_mul_le cfg.sz_pos).mp hn
        exact Nat.mod_eq_of_lt (by omega)
      refine ⟨⟨_, s.vars ++ [some s.mem.next]⟩, by simp only [step, allocate, malloc, if_true]; rfl, ?_⟩
      have old : ∀ {x b : Nat}, s.vars[x]? = some (some b) → b < s.mem.next := by
        intro x b hx
        have hlt : x < vs.length := by
          rw [← R.len]
          exact (List.getElem?_eq_some_iff.mp hx).1
        have hm := R.means hx (List.getElem?_eq_getElem hlt)
        cases hv : vs[x] with
        | null => rw [hv] at hm; exact absurd hm id
        | arr n f => rw [hv] at hm; exact hm.1
        | gone => rw [hv] at hm; exact hm.1
      refine ⟨by simp [R.len], ?_, ?_, ?_, ?_⟩
      · intro x p v hp hv
        simp only at hp
        rw [List.getElem?_append] at hp hv
        rw [R.len] at hp
        split at hp
        · rename_i hx
          rw [if_pos hx] at hv
          have hm := R.means hp hv
          cases p with
          | none => cases v <;> first | exact hm | exact absurd hm id
          | some b =>
            have hb := old hp
            have hne : b ≠ s.mem.next := by omega
            cases v with
            | null => exact absurd hm id
            | arr n f =>
              obtain ⟨h1, ⟨bytes, h2, h3⟩, h4⟩ := hm
              exact ⟨by simp only; omega, ⟨bytes, by simp only [if_neg hne, h2], h3⟩, h4⟩
            | gone => exact ⟨by simp only; omega, by simp only [if_neg hne, hm.2]⟩
        · rename_i hx
          rw [if_neg hx] at hv
          obtain ⟨_, rfl⟩ := List.getElem?_eq_some_iff.mp hp
          obtain ⟨_, rfl⟩ := List.getElem?_eq_some_iff.mp hv
          simp only [List.getElem_singleton, if_true]
          exact ⟨by simp, ⟨_, by simp only [if_true]; rfl, by rw [hw]; exact Nat.le_refl _⟩, fun i _ => (R.fresh _ (Nat.le_refl _)).2 _⟩
      · intro x y b h1 h2
        simp only at h1 h2
        rw [List.getElem?_append] at h1 h2
        split at h1
        · have hb := old h1
          split at h2
          · exact R.apart h1 h2
          · obtain ⟨_, h2⟩ := List.getElem?_eq_some_iff.mp h2
            simp only [List.getElem_singleton, Option.some.injEq] at h2
            omega
        · rename_i hx
          obtain ⟨hx', h1⟩ := List.getElem?_eq_some_iff.mp h1
          simp only [List.getElem_singleton, Option.some.injEq, List.length_singleton] at h1 hx'
          split at h2
          · have := old h2
            omega
          · rename_i hy
            have hy' := (List.getElem?_eq_some_iff.mp h2).1
            simp only [List.length_singleton] at hy'
            omega
      · intro b hb
        simp only at hb ⊢
        rw [if_neg (by omega)]
        exact ⟨(R.fresh b (by omega)).1, (R.fresh b (by omega)).2⟩
      · rw [held_append, ← R.count]
        simp only [heldBlocks, List.range_succ, List.filter_append, List.length_append]
        congr 1
        · congr 1
          apply List.filter_congr
          intro b hb
          have := List.mem_range.mp hb
          rw [if_neg (by omega)]
        · simp [Arr.held]
  | construct x i a =>
    simp only [arrStep] at h
    split at h
    · rename_i n f hv
      split at h
      · rename_i hi
        simp only [Option.some.injEq, Prod.mk.injEq] at h
        obtain ⟨rfl, rfl⟩ := h
        obtain ⟨p, m, h1, h2, h3⟩ := construct_sim R hv hi a
        exact ⟨_, by simp [step, h1, h2], h3⟩
      · cases h
    · cases h
  | construct0 x i =>
    simp only [arrStep] at h
    split at h
    · rename_i n f hv
      split at h
      · rename_i hi
        simp only [Option.some.injEq, Prod.mk.injEq] at h
        obtain ⟨rfl, rfl⟩ := h
        obtain ⟨p, m, h1, h2, h3⟩ := construct_sim R hv hi cfg.dflt
        exact ⟨_, by simp [step, construct0, h1, h2], h3⟩
      · cases h
    · cases h
  | get x i =>
    simp only [arrStep] at h
    split at h
    · rename_i n f hv
      split at h
      · rename_i hi
        split at h
        · rename_i a ha
          simp only [Option.some.injEq, Prod.mk.injEq] at h
          obtain ⟨rfl, rfl⟩ := h
          obtain ⟨p, hx, hp, hm⟩ := R.ptr hv
          cases p with
          | none => exact absurd hm id
          | some b =>
            obtain ⟨hb, ⟨bytes, hs, hn⟩, ho⟩ := hm
            exact ⟨s, by simp [step, hp, get, place_of hs hn hi, ho i hi, ha], R⟩
        · cases h
      · cases h
    · cases h
  | destroy x i =>
    simp only [arrStep] at h
    split at h
    · rename_i n f hv
      split at h
      · rename_i hi
        split at h
        · rename_i a ha
          simp only [Option.some.injEq, Prod.mk.injEq] at h
          obtain ⟨rfl, rfl⟩ := h
          obtain ⟨p, hx, hp, hm⟩ := R.ptr hv
          cases p with
          | none => exact absurd hm id
          | some b =>
            obtain ⟨hb, ⟨bytes, hs, hn⟩, ho⟩ := hm
            refine ⟨_, by simp only [step, hp, destroy, place_of hs hn hi, ho i hi, ha, Res.ok_bind]; rfl, R.update hx hv ?_ ?_⟩
            · intro c off hc
              simp [hc]
            · intro j hj
              simp only [true_and, mul_inj, ho j hj]
        · cases h
      · cases h
    · cases h
  | deallocate x =>
    simp only [arrStep] at h
    split at h
    · rename_i hv
      simp only [Option.some.injEq, Prod.mk.injEq] at h
      obtain ⟨rfl, rfl⟩ := h
      obtain ⟨p, hx, hp, hm⟩ := R.ptr hv
      cases p with
      | none => exact ⟨s, by simp [step, hp, deallocate, free], R⟩
      | some b => exact absurd hm id
    · rename_i n f hv
      simp only [Option.some.injEq, Prod.mk.injEq] at h
      obtain ⟨rfl, rfl⟩ := h
      obtain ⟨p, hx, hp, hm⟩ := R.ptr hv
      cases p with
      | none => exact absurd hm id
      | some b =>
        obtain ⟨hb, ⟨bytes, hs, hn⟩, ho⟩ := hm
        refine ⟨_, by simp only [step, hp, deallocate, free, hs, Res.ok_bind]; rfl, ?_⟩
        refine ⟨by simpa using R.len, ?_, R.apart, ?_, ?_⟩
        · intro y p v hp' hy
          by_cases hxy : x = y
          · subst hxy
            rw [List.getElem?_set_self (by have := (List.getElem?_eq_some_iff.mp hv).1; exact this)] at hy
            cases hy
            simp only at hp'
            rw [hx] at hp'
            cases hp'
            exact ⟨hb, by simp⟩
          · rw [List.getElem?_set_ne hxy] at hy
            have hm := R.means hp' hy
            cases p with
            | none => cases v <;> first | exact hm | exact absurd hm id
            | some c =>
              have hc : c ≠ b := by
                rintro rfl
                exact hxy (R.apart hx hp')
              cases v with
              | null => exact absurd hm id
              | arr n' f' =>
                obtain ⟨g1, ⟨by', g2, g3⟩, g4⟩ := hm
                exact ⟨g1, ⟨by', by simp only [if_neg hc, g2], g3⟩, fun i hi => by simp only [if_neg hc]; exact g4 i hi⟩
              | gone => exact ⟨hm.1, by simp only [if_neg hc]; exact hm.2⟩
        · intro c hc
          have := R.fresh c hc
          refine ⟨?_, fun o => ?_⟩
          · simp only
            split
            · rfl
            · exact this.1
          · simp only
            split
            · rfl
            · exact this.2 o
        · have h1 := held_set_gone hv
          have h2 := R.count
          have h3 := filter_release (p := fun c => (s.mem.size c).isSome) (q := fun c => (if c = b then none else s.mem.size c : Option Nat).isSome) hb (by simp [hs])
            (by simp) (by intro c hc; simp [hc])
          simp only [heldBlocks] at h2 ⊢
          omega
    · cases h

theorem run_sim {cfg : Cfg α} : ∀ (ops : List (AOp α)) {s : St α} {vs vs' : List (Arr α)} {rs : List (ARep α)}, Rel cfg s vs → AtMostAtOnce (maxSize cfg) ops →
    arrRun cfg.dflt vs ops = some (vs', rs) → ∃ s', run cfg s ops = .ok (s', rs) ∧ Rel cfg s' vs' := by
  intro ops
  induction ops with
  | nil =>
    intro s vs vs' rs R _ h
    simp only [arrRun, Option.some.injEq, Prod.mk.injEq] at h
    obtain ⟨rfl, rfl⟩ := h
    exact ⟨s, rfl, R⟩
  | cons op ops ih =>
    intro s vs vs' rs R hw h
    simp only [arrRun] at h
    split at h
    · cases h
    · rename_i vs1 r h1
      split at h
      · cases h
      · rename_i vs2 rs2 h2
        simp only [Option.some.injEq, Prod.mk.injEq] at h
        obtain ⟨rfl, rfl⟩ := h
        obtain ⟨s1, e1, R1⟩ := step_sim R op (fun n g e => hw n g (by simp [e])) h1
        obtain ⟨s2, e2, R2⟩ := ih R1 (fun n g e => hw n g (by simp [e])) h2
        exact ⟨s2, by simp [run, e1, e2], R2⟩

end Eni.Alloc
