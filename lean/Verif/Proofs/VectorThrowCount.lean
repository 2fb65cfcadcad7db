import Verif.Proofs.VectorThrow
/-!
# Objects made and released by a vector whose copies may fail

For every action: what it does to the two counters, whichever copies fail, without any assumption on the state or the arguments.
-/
namespace Eni.OThr
open OVec Spec
variable {α : Type}

/-- No cell consists of zero bytes (unless `operator=` does not look at them). -/
def NoZero (c : OCls α) (v : OVec α) : Prop := c.blind = true ∨ ∀ cells, v.data = some cells → OCell.zero ∉ cells

/-- An action that makes `e` objects besides those it assigns, whether or not an exception comes out of it. -/
def Bal (c : OCls α) (e : Nat) (a : Act α) : Prop := ∀ v n r, NoZero c v → a v n = .ok r → NoZero c r.vec ∧ Counts c e v r.vec

theorem bal_andThen {c : OCls α} {e : Nat} {f g : Act α} (hf : Bal c e f) (hg : Bal c 0 g) : Bal c e (andThen f g) := by
  intro v n r hz h
  rw [andThen] at h
  obtain ⟨r1, h1, h2⟩ := Res.bind_eq_ok.mp h
  obtain ⟨z1, k1⟩ := hf v n r1 hz h1
  split at h2
  · cases h2; exact ⟨z1, k1⟩
  · obtain ⟨z2, k2⟩ := hg _ _ _ z1 h2
    exact ⟨z2, k1.trans k2⟩

theorem bal_lift {c : OCls α} {f : OVec α → Res (OVec α)}
    (hf : ∀ v v', NoZero c v → f v = .ok v' → NoZero c v' ∧ v'.made = v.made ∧ v'.released = v.released) : Bal c 0 (lift f) := by
  intro v n r hz h
  rw [lift] at h
  obtain ⟨v', h1, h2⟩ := Res.bind_eq_ok.mp h
  cases h2
  obtain ⟨z, m, k⟩ := hf v v' hz h1
  exact ⟨z, 0, by simp [m], by simp [k]⟩

theorem bal_ok (c : OCls α) : Bal c 0 (lift .ok) := bal_lift fun v v' hz h => by cases h; exact ⟨hz, rfl, rfl⟩

theorem bal_setSize (c : OCls α) (s : Nat) : Bal c 0 (setSize s) := bal_lift fun v v' hz h => by cases h; exact ⟨hz, rfl, rfl⟩

theorem bal_assign1 (c : OCls α) (boom : Nat → Bool) (i : Nat) (a : α) : Bal c 0 (assign1 c boom i a) := by
  intro v n r hz h
  rw [assign1] at h
  cases hd : v.data with
  | none => simp [hd] at h
  | some cells =>
    simp only [hd] at h
    cases hx : cells[i]? with
    | none => simp [hx] at h
    | some x =>
      simp only [hx] at h
      obtain ⟨k, hk, h2⟩ := Res.bind_eq_ok.mp h
      have hk' : k = if c.blind then 0 else 1 := by
        cases hb : c.blind with
        | true => cases x <;> simp [over, hb] at hk <;> simp [hk]
        | false =>
          have hmem := List.mem_of_getElem? hx
          have hn := (hz.resolve_left (by simp [hb])) cells hd
          cases x with
          | raw => simp [over, hb] at hk
          | zero => exact absurd hmem hn
          | obj y => simp [over, hb] at hk; simp [hk]
      split at h2
      · cases h2; exact ⟨hz, Counts.refl c v⟩
      · cases h2
        refine ⟨hz.imp id fun hn cells' h' => ?_, 1, rfl, by simp [hk']⟩
        simp only [Option.some.injEq] at h'
        subst h'
        intro hm
        rcases List.mem_or_eq_of_mem_set hm with hm | hm
        · exact hn cells hd hm
        · cases hm

theorem bal_fill (c : OCls α) (boom : Nat → Bool) : ∀ (as : List α) (i : Nat), Bal c 0 (fill c boom i as)
  | [], _ => bal_ok c
  | a :: as, i => bal_andThen (bal_assign1 c boom i a) (bal_fill c boom as (i + 1))

theorem bal_copy1 (c : OCls α) (boom : Nat → Bool) (s d : Nat) : Bal c 0 (copy1 c boom s d) := by
  intro v n r hz h
  rw [copy1] at h
  obtain ⟨a, -, h2⟩ := Res.bind_eq_ok.mp h
  exact bal_assign1 c boom d a v n r hz h2

theorem bal_copyFwd (c : OCls α) (boom : Nat → Bool) : ∀ (len s d : Nat), Bal c 0 (copyFwd c boom s d len)
  | 0, _, _ => bal_ok c
  | len + 1, s, d => bal_andThen (bal_copy1 c boom s d) (bal_copyFwd c boom len (s + 1) (d + 1))

theorem bal_copyBack (c : OCls α) (boom : Nat → Bool) : ∀ (len s d : Nat), Bal c 0 (copyBack c boom s d len)
  | 0, _, _ => bal_ok c
  | len + 1, s, d => bal_andThen (bal_copy1 c boom (s + len) (d + len)) (bal_copyBack c boom len s d)

theorem reserve_noZero {c : OCls α} {v v' : OVec α} {n : Nat} (hz : NoZero c v) (h : OVec.reserve c v n = .ok v') :
    NoZero c v' ∧ v'.made = v.made ∧ v'.released = v.released := by
  rw [OVec.reserve] at h
  split at h
  · cases h; exact ⟨hz, rfl, rfl⟩
  · obtain ⟨t, -, h2⟩ := Res.bind_eq_ok.mp h
    cases h2
    refine ⟨hz.imp id fun hn cells' h' => ?_, rfl, rfl⟩
    simp only [Option.some.injEq] at h'
    subst h'
    intro hm
    rcases List.mem_append.mp hm with hm | hm
    · replace hm := List.mem_of_mem_take hm
      cases hd : v.data with
      | none => simp [hd] at hm
      | some cells =>
        simp only [hd] at hm
        split at hm
        · exact hn cells hd hm
        · exact absurd (List.eq_of_mem_replicate hm) (by simp)
    · exact absurd (List.eq_of_mem_replicate hm) (by simp)

theorem bal_reserve (c : OCls α) (n : Nat) : Bal c 0 (lift fun v => OVec.reserve c v n) := bal_lift fun _ _ hz h => reserve_noZero hz h

theorem bal_resize (c : OCls α) (boom : Nat → Bool) (s : Nat) (a : α) : Bal c 0 (resize c boom s a) := by
  refine bal_andThen (bal_reserve c s) fun v n r hz h => ?_
  refine bal_andThen (f := if s > v.size then fill c boom v.size (List.replicate (s - v.size) a) else lift .ok) ?_ (bal_setSize c s) v n r hz h
  split
  · exact bal_fill c boom _ _
  · exact bal_ok c

theorem bal_pushBack (c : OCls α) (boom : Nat → Bool) (a : α) : Bal c 0 (pushBack c boom a) := by
  intro v n r hz h
  refine bal_andThen (f := lift fun v => OVec.reserve c v (v.size + 1)) (bal_lift fun _ _ hz h => reserve_noZero hz h) (fun w n r hz h => ?_) v n r hz h
  exact bal_andThen (bal_setSize c (w.size + 1)) (bal_assign1 c boom w.size a) w n r hz h

theorem bal_emplaceBack (c : OCls α) (boom : Nat → Bool) (a : α) : Bal c 1 (emplaceBack c boom a) := by
  refine bal_andThen (fun v n r hz h => ?_) (bal_pushBack c boom a)
  rw [lift] at h
  cases h
  exact ⟨hz, 0, rfl, by simp⟩

theorem bal_insert (c : OCls α) (boom : Nat → Bool) (i : Nat) (xs : List α) : Bal c 0 (insert c boom i xs) := by
  intro v n r hz h
  exact bal_andThen (bal_resize c boom _ c.dflt) (bal_andThen (bal_copyBack c boom _ _ _) (bal_fill c boom xs i)) v n r hz h

theorem bal_erase (c : OCls α) (boom : Nat → Bool) (f l : Nat) : Bal c 0 (erase c boom f l) := by
  intro v n r hz h
  exact bal_andThen (bal_copyFwd c boom _ _ _) (bal_resize c boom _ c.dflt) v n r hz h

theorem bal_assign (c : OCls α) (boom : Nat → Bool) (xs : List α) : Bal c 0 (assign c boom xs) :=
  bal_andThen (bal_resize c boom _ c.dflt) (bal_fill c boom xs 0)

/-- One call, whether or not an exception comes out of it. -/
theorem bal_step {c : OCls α} {boom : Nat → Bool} {v v' : OVec α} {n n' : Nat} {op : Op α} {t : TRet α} (hz : NoZero c v)
    (h : step c boom v n op = .ok (v', n', t)) : NoZero c v' ∧ Counts c (emplaced [op]) v v' := by
  have act : ∀ {e : Nat} {a : Act α} {ret : VRet α}, Bal c e a → (do Res.ok (caught (← a v n) ret)) = .ok (v', n', t) → NoZero c v' ∧ Counts c e v v' := by
    intro e a ret hb h
    obtain ⟨r, h1, h2⟩ := Res.bind_eq_ok.mp h
    have := hb v n r hz h1
    simp only [caught, Res.ok.injEq, Prod.mk.injEq] at h2
    rw [h2.1] at this
    exact this
  have same : v' = v → NoZero c v' ∧ Counts c 0 v v' := by rintro rfl; exact ⟨hz, Counts.refl c _⟩
  cases op with
  | pushBack a => exact act (bal_pushBack c boom a) h
  | emplaceBack a => exact act (bal_emplaceBack c boom a) h
  | popBack =>
    rw [step] at h
    obtain ⟨⟨r, a⟩, h1, h2⟩ := Res.bind_eq_ok.mp h
    rw [popBack] at h1
    split at h1
    · cases h1
    · obtain ⟨b, -, h3⟩ := Res.bind_eq_ok.mp h1
      simp only [Res.ok.injEq, Prod.mk.injEq] at h3
      simp only [caught, Res.ok.injEq, Prod.mk.injEq] at h2
      obtain ⟨rfl, -⟩ := h3
      obtain ⟨rfl, -⟩ := h2
      exact ⟨hz, 0, rfl, by simp⟩
  | insert i xs =>
    rw [step] at h
    split at h
    · exact same (by cases h; rfl)
    · exact act (bal_insert c boom i xs) h
  | erase f l =>
    rw [step] at h
    split at h
    · exact same (by cases h; rfl)
    · exact act (bal_erase c boom f l) h
  | resize s a => exact act (bal_resize c boom s a) h
  | reserve s =>
    rw [step] at h
    obtain ⟨w, h1, h2⟩ := Res.bind_eq_ok.mp h
    cases h2
    obtain ⟨z, m, k⟩ := reserve_noZero hz h1
    exact ⟨z, 0, by simp [m, emplaced], by simp [k]⟩
  | assign xs => exact act (bal_assign c boom xs) h
  | clear =>
    cases h
    exact ⟨.inr (by simp [OVec.clear]), 0, rfl, by simp [OVec.clear]⟩
  | at_ i =>
    rw [step] at h
    obtain ⟨w, h1, h2⟩ := Res.bind_eq_ok.mp h
    exact same (by cases h2; rfl)

theorem emplaced_cons (op : Op α) (ops : List (Op α)) : emplaced (op :: ops) = emplaced [op] + emplaced ops := by
  cases op <;> simp [emplaced]; omega

theorem bal_run {c : OCls α} {boom : Nat → Bool} : ∀ (ops : List (Op α)) {v v' : OVec α} {n n' : Nat} {ts : List (TRet α)}, NoZero c v →
    run c boom v n ops = .ok (v', n', ts) → Counts c (emplaced ops) v v'
  | [], v, v', n, n', ts, _, h => by cases h; exact Counts.refl c _
  | op :: ops, v, v', n, n', ts, hz, h => by
    rw [run] at h
    obtain ⟨⟨v1, n1, t1⟩, h1, h2⟩ := Res.bind_eq_ok.mp h
    obtain ⟨⟨v2, n2, t2⟩, h3, h4⟩ := Res.bind_eq_ok.mp h2
    cases h4
    obtain ⟨z1, k1⟩ := bal_step hz h1
    rw [emplaced_cons]
    exact k1.trans (bal_run ops z1 h3)

end Eni.OThr
