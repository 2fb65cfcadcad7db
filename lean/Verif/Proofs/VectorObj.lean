import Verif.Spec.VectorObj
import Verif.Proofs.Vector
namespace Eni.OVec
open Eni.Spec
variable {α : Type}

/-- The block: objects `zs`, then `m` cells of indeterminate bytes. -/
def block (zs : List α) (m : Nat) : List (OCell α) := zs.map .obj ++ List.replicate m .raw

theorem block_length (zs : List α) (m : Nat) : (block zs m).length = zs.length + m := by simp [block]

theorem block_obj {zs : List α} {m i : Nat} (h : i < zs.length) : (block zs m)[i]? = some (.obj zs[i]) := by
  simp [block, List.getElem?_append, h]

theorem block_raw {zs : List α} {m i : Nat} (h : zs.length ≤ i) (h2 : i < zs.length + m) : (block zs m)[i]? = some .raw := by
  rw [block, List.getElem?_append_right (by simpa using h), List.getElem?_replicate, if_pos (by rw [List.length_map]; omega)]

theorem block_set {zs : List α} {m i : Nat} (a : α) (h : i < zs.length) : (block zs m).set i (.obj a) = block (zs.set i a) m := by
  rw [block, List.set_append_left _ _ (by simpa using h), block, List.map_set]

theorem block_set_end {zs : List α} {m : Nat} (a : α) : (block zs (m + 1)).set zs.length (.obj a) = block (zs ++ [a]) m := by
  rw [block, List.set_append_right _ _ (by simp)]
  simp [block, List.replicate_succ]

/-- Assignments within the objects. -/
theorem put_in (c : OCls α) (m : Nat) : ∀ (as zs : List α) (i : Nat), i + as.length ≤ zs.length →
    put c (some (block zs m)) i as =
      .ok (some (block (zs.take i ++ as ++ zs.drop (i + as.length)) m), if c.blind then 0 else as.length) := by
  intro as
  induction as with
  | nil => intro zs i h; simp [put]
  | cons a as ih =>
    intro zs i h
    simp only [List.length_cons] at h
    rw [put, block_obj (by omega : i < zs.length)]
    simp only [over, Res.ok_bind, block_set a (by omega : i < zs.length)]
    rw [ih _ _ (by simp; omega)]
    have e : (zs.set i a).take (i + 1) ++ as ++ (zs.set i a).drop (i + 1 + as.length)
        = zs.take i ++ a :: as ++ zs.drop (i + (as.length + 1)) := by
      rw [List.drop_set_of_lt (by omega), show i + 1 + as.length = i + (as.length + 1) by omega]
      congr 1
      rw [List.take_add_one, List.take_set_of_le (Nat.le_refl _), List.getElem?_set_self (by omega)]
      simp
    simp only [Res.ok_bind, e, List.length_cons]
    cases c.blind <;> simp <;> omega

/-- Assignments from within the objects to beyond them, for a type whose `operator=` does not look at the target. -/
theorem put_beyond (c : OCls α) (hb : c.blind = true) : ∀ (as zs : List α) (i m : Nat), i ≤ zs.length → zs.length ≤ i + as.length →
    i + as.length ≤ zs.length + m →
    put c (some (block zs m)) i as = .ok (some (block (zs.take i ++ as) (zs.length + m - (i + as.length))), 0) := by
  intro as
  induction as with
  | nil =>
    intro zs i m h1 h2 h3
    simp only [List.length_nil, Nat.add_zero] at h2 h3
    have : i = zs.length := by omega
    subst this
    simp [put]
  | cons a as ih =>
    intro zs i m h1 h2 h3
    simp only [List.length_cons] at h2 h3
    rcases Nat.lt_or_ge i zs.length with h | h
    · rw [put, block_obj h]
      simp only [over, hb, Res.ok_bind, block_set a h, if_true]
      rw [ih _ _ _ (by simp; omega) (by simp; omega) (by simp; omega)]
      have e : (zs.set i a).take (i + 1) ++ as = zs.take i ++ a :: as := by
        rw [List.take_add_one, List.take_set_of_le (Nat.le_refl _), List.getElem?_set_self (by omega)]
        simp
      simp only [Res.ok_bind, e, List.length_set, List.length_cons]
      rw [show i + 1 + as.length = i + (as.length + 1) by omega]
    · have : i = zs.length := by omega
      subst this
      obtain ⟨m, rfl⟩ : ∃ m', m = m' + 1 := ⟨m - 1, by omega⟩
      rw [put, block_raw (Nat.le_refl _) (by omega)]
      simp only [over, hb, Res.ok_bind, block_set_end, if_true]
      have := ih (zs ++ [a]) (zs.length + 1) m (by simp) (by simp) (by simp; omega)
      rw [this]
      simp only [Res.ok_bind, List.length_append, List.length_cons, List.length_nil]
      congr 3
      · congr 1
        · rw [List.take_of_length_le (by simp), List.take_of_length_le (Nat.le_refl _)]
          simp
        · omega

/-- The same for any other type. -/
theorem put_ub (c : OCls α) (hb : c.blind = false) : ∀ (as zs : List α) (i m : Nat), i ≤ zs.length → zs.length < i + as.length →
    0 < m → put c (some (block zs m)) i as = .ub .uninit := by
  intro as
  induction as with
  | nil => intro zs i m h1 h2 h3; simp only [List.length_nil] at h2; omega
  | cons a as ih =>
    intro zs i m h1 h2 h3
    simp only [List.length_cons] at h2
    rcases Nat.lt_or_ge i zs.length with h | h
    · rw [put, block_obj h]
      simp only [over, Res.ok_bind, block_set a h]
      rw [ih _ _ _ (by simp; omega) (by simp; omega) h3]
      rfl
    · have : i = zs.length := by omega
      subst this
      rw [put, block_raw (Nat.le_refl _) (by omega)]
      simp [over, hb]

/-- `zs` are the objects in the block. -/
structure Blk (v : OVec α) (zs : List α) : Prop where
  data : ∃ m, v.alloc ≤ zs.length + m ∧ (v.data = some (block zs m) ∨ v.data = none ∧ zs = [] ∧ m = 0)
  objs : zs.length ≤ v.alloc

theorem Blk.congr {v v' : OVec α} {zs : List α} (h : Blk v zs) (h1 : v'.data = v.data) (h2 : v'.alloc = v.alloc) : Blk v' zs :=
  ⟨by rw [h1, h2]; exact h.data, by rw [h2]; exact h.objs⟩

theorem readO_blk (c : OCls α) {v : OVec α} {zs : List α} (h : Blk v zs) {i : Nat} (hi : i < zs.length) :
    readO c v.data i = .ok zs[i] := by
  obtain ⟨m, hm, hd | ⟨-, rfl, -⟩⟩ := h.data
  · rw [hd, readO]; simp [block_obj hi]
  · simp at hi

theorem readN_blk (c : OCls α) {v : OVec α} {zs : List α} (h : Blk v zs) : ∀ (n i : Nat), i + n ≤ zs.length →
    readN c v.data i n = .ok ((zs.drop i).take n) := by
  intro n
  induction n with
  | zero => intro i hi; simp [readN]
  | succ n ih =>
    intro i hi
    rw [readN, readO_blk c h (by omega : i < zs.length), Res.ok_bind, ih _ (by omega), Res.ok_bind,
      List.drop_eq_getElem_cons (by omega : i < zs.length), List.take_succ_cons]

theorem blk_null {v : OVec α} (h1 : v.data = none) (h2 : v.alloc = 0) : Blk v [] := ⟨⟨0, by simp [h2], .inr ⟨h1, rfl, rfl⟩⟩, by simp⟩

/-- What a write of `n` values leaves alone, and what it does to the counters. -/
structure Wrote (c : OCls α) (n : Nat) (v v' : OVec α) : Prop where
  size : v'.size = v.size
  alloc : v'.alloc = v.alloc
  made : v'.made = v.made + n
  released : v'.released = v.released + (if c.blind then 0 else n)

/-- A write within the objects. -/
theorem write_in (c : OCls α) {v : OVec α} {zs : List α} (h : Blk v zs) {i : Nat} {as : List α} (hi : i + as.length ≤ zs.length) :
    ∃ v', write c v i as = .ok v' ∧ Blk v' (zs.take i ++ as ++ zs.drop (i + as.length)) ∧ Wrote c as.length v v' := by
  have hl : (zs.take i ++ as ++ zs.drop (i + as.length)).length = zs.length := by simp; omega
  obtain ⟨m, hm, hd | ⟨hd, rfl, rfl⟩⟩ := h.data
  · rw [write, hd, put_in c m as zs i hi]
    exact ⟨_, rfl, ⟨⟨m, by rw [hl]; exact hm, .inl rfl⟩, by rw [hl]; exact h.objs⟩, ⟨rfl, rfl, rfl, rfl⟩⟩
  · have : as = [] := by
      cases as with
      | nil => rfl
      | cons a as => simp at hi
    subst this
    refine ⟨v, by simp [write, put], ?_, ⟨rfl, rfl, rfl, by simp⟩⟩
    simpa using h

/-- A write to beyond the objects but within the capacity. -/
theorem write_beyond (c : OCls α) (hb : c.blind = true) {v : OVec α} {zs : List α} (h : Blk v zs) {i : Nat} {as : List α} (h1 : i ≤ zs.length)
    (h2 : zs.length ≤ i + as.length) (h3 : i + as.length ≤ v.alloc) :
    ∃ v', write c v i as = .ok v' ∧ Blk v' (zs.take i ++ as) ∧ Wrote c as.length v v' := by
  have hl : (zs.take i ++ as).length = i + as.length := by simp; omega
  obtain ⟨m, hm, hd | ⟨hd, rfl, rfl⟩⟩ := h.data
  · rw [write, hd, put_beyond c hb as zs i m h1 h2 (by omega)]
    refine ⟨_, rfl, ⟨⟨_, ?_, .inl rfl⟩, by rw [hl]; exact h3⟩, ⟨rfl, rfl, rfl, by simp [hb]⟩⟩
    rw [hl]
    show v.alloc ≤ _
    omega
  · have : as = [] := by
      cases as with
      | nil => rfl
      | cons a as => simp at hm; simp at h3; omega
    subst this
    refine ⟨v, by simp [write, put], ?_, ⟨rfl, rfl, rfl, by simp⟩⟩
    simpa using h

/-- The same for any other type. -/
theorem write_ub (c : OCls α) (hb : c.blind = false) {v : OVec α} {zs : List α} (h : Blk v zs) {i : Nat} {as : List α} (h1 : i ≤ zs.length)
    (h2 : zs.length < i + as.length) (h3 : i + as.length ≤ v.alloc) : write c v i as = .ub .uninit := by
  obtain ⟨m, hm, hd | ⟨hd, rfl, rfl⟩⟩ := h.data
  · rw [write, hd, put_ub c hb as zs i m h1 h2 (by omega)]; rfl
  · simp at hm h2; omega

theorem reserve_blk (c : OCls α) (hr : c.reloc = true) {v : OVec α} {zs : List α} (h : Blk v zs) {n : Nat} (hn : Fits c.sz n) :
    ∃ v', reserve c v n = .ok v' ∧ Blk v' zs ∧ n ≤ v'.alloc ∧ v'.size = v.size ∧ v'.made = v.made ∧ v'.released = v.released := by
  rw [reserve]
  split
  · exact ⟨v, rfl, h, by assumption, rfl, rfl, rfl⟩
  · rename_i hlt
    have hn2 : n ≤ 9223372036854775808 := by
      unfold Fits at hn
      have := Nat.mul_le_mul_right (2 * n) (show 1 ≤ c.sz from c.sz_pos)
      omega
    obtain ⟨r, hr1, hr2, hr3⟩ := Vec.growLoop_spec hn2 (by omega : v.alloc < n)
    rw [hr1]
    have ho := h.objs
    refine ⟨_, rfl, ⟨⟨r - zs.length, by show n ≤ _; omega, .inl ?_⟩, by show zs.length ≤ n; omega⟩, Nat.le_refl _, rfl, rfl, rfl⟩
    obtain ⟨m, hm, hd | ⟨hd, rfl, rfl⟩⟩ := h.data
    · simp only [hd, hr, if_true]
      rw [block_length, block, List.take_append, List.length_map, List.take_of_length_le (by simp; omega), List.take_replicate,
        List.append_assoc, List.replicate_append_replicate, block]
      congr 3
      omega
    · simp [hd, block]

/-- The elements `xs` are the first of the objects `zs` in the block. -/
structure Inv (v : OVec α) (xs zs : List α) : Prop where
  blk : Blk v zs
  size : v.size = xs.length
  pre : ∃ ys, zs = xs ++ ys

theorem Inv.le {v : OVec α} {xs zs : List α} (h : Inv v xs zs) : xs.length ≤ zs.length := by
  obtain ⟨ys, rfl⟩ := h.pre; simp

/-- How the counters change: `n` values written, `e` further objects made. -/
def Counts (c : OCls α) (e : Nat) (v v' : OVec α) : Prop :=
  ∃ n, v'.made = v.made + n + e ∧ v'.released = v.released + (if c.blind then 0 else n)

theorem Counts.refl (c : OCls α) (v : OVec α) : Counts c 0 v v := ⟨0, rfl, by simp⟩

theorem Counts.trans {c : OCls α} {e f : Nat} {u v w : OVec α} (h : Counts c e u v) (h' : Counts c f v w) : Counts c (e + f) u w := by
  obtain ⟨n, h1, h2⟩ := h
  obtain ⟨m, h3, h4⟩ := h'
  refine ⟨n + m, by omega, ?_⟩
  rw [h4, h2]
  cases c.blind <;> simp <;> omega

theorem Wrote.counts {c : OCls α} {n : Nat} {v v' : OVec α} (h : Wrote c n v v') : Counts c 0 v v' := ⟨n, h.made, h.released⟩

/-- Values written behind the last element. -/
theorem write_end (c : OCls α) {v : OVec α} {xs zs : List α} (h : Inv v xs zs) {as : List α} (ha : xs.length + as.length ≤ v.alloc)
    (hr : c.blind = true ∨ xs.length + as.length ≤ zs.length) :
    ∃ v' zs', write c v v.size as = .ok v' ∧ Blk v' zs' ∧ (∃ ys, zs' = xs ++ as ++ ys) ∧ (c.blind = false → zs'.length = zs.length) ∧
      Wrote c as.length v v' := by
  have hl := h.le
  obtain ⟨ys, e⟩ := h.pre
  have ht : zs.take xs.length = xs := by rw [e]; simp
  rw [h.size]
  rcases Nat.lt_or_ge zs.length (xs.length + as.length) with h1 | h1
  · have hb : c.blind = true := hr.resolve_right (by omega)
    obtain ⟨v', e1, e2, e3⟩ := write_beyond c hb h.blk hl (Nat.le_of_lt h1) ha
    rw [ht] at e2
    exact ⟨v', _, e1, e2, ⟨[], by simp⟩, by simp [hb], e3⟩
  · obtain ⟨v', e1, e2, e3⟩ := write_in c h.blk h1
    rw [ht] at e2
    exact ⟨v', _, e1, e2, ⟨_, rfl⟩, fun _ => by simp; omega, e3⟩

theorem resize_ok (c : OCls α) (hr : c.reloc = true) {v : OVec α} {xs zs : List α} (h : Inv v xs zs) {n : Nat} (a : α) (hn : Fits c.sz n)
    (hb : c.blind = true ∨ n ≤ zs.length) :
    ∃ v' zs', resize c v n a = .ok v' ∧ Inv v' (xs.take n ++ List.replicate (n - xs.length) a) zs' ∧
      (c.blind = false → zs'.length = zs.length) ∧ Counts c 0 v v' ∧ n ≤ v'.alloc := by
  obtain ⟨v1, e1, b1, a1, s1, m1, r1⟩ := reserve_blk c hr h.blk hn
  have c1 : Counts c 0 v v1 := ⟨0, by omega, by simp [r1]⟩
  have hs := h.size
  obtain ⟨ys, ez⟩ := h.pre
  rw [resize, e1]
  simp only [Res.ok_bind]
  by_cases hgt : n > v1.size
  · rw [if_pos hgt]
    have i1 : Inv v1 xs zs := ⟨b1, by rw [s1]; exact hs, ys, ez⟩
    have hlen : xs.length + (List.replicate (n - v1.size) a).length = n := by simp; omega
    obtain ⟨v2, zs2, e2, b2, p2, l2, w2⟩ := write_end c i1 (as := List.replicate (n - v1.size) a) (by omega)
      (hb.imp id (by omega))
    rw [e2]
    refine ⟨_, zs2, rfl, ⟨b2.congr rfl rfl, ?_, ?_⟩, l2, c1.trans w2.counts, ?_⟩
    · simp; omega
    · rw [show n - xs.length = n - v1.size by omega, List.take_of_length_le (by omega)]
      exact p2
    · rw [show ({ v2 with size := n } : OVec α).alloc = v2.alloc from rfl, w2.alloc]; exact a1
  · rw [if_neg hgt]
    refine ⟨_, zs, rfl, ⟨b1.congr rfl rfl, ?_, ?_⟩, fun _ => rfl, c1, a1⟩
    · simp; omega
    · rw [show n - xs.length = 0 by omega]
      refine ⟨xs.drop n ++ ys, ?_⟩
      rw [ez, List.replicate_zero, List.append_nil, ← List.append_assoc, List.take_append_drop]

theorem resize_ub (c : OCls α) (hr : c.reloc = true) (hb : c.blind = false) {v : OVec α} {xs zs : List α} (h : Inv v xs zs) {n : Nat} (a : α)
    (hn : Fits c.sz n) (hgt : zs.length < n) : resize c v n a = .ub .uninit := by
  obtain ⟨v1, e1, b1, a1, s1, m1, r1⟩ := reserve_blk c hr h.blk hn
  have hs := h.size
  have hl := h.le
  rw [resize, e1]
  simp only [Res.ok_bind]
  rw [if_pos (by omega), write_ub c hb b1 (by omega) (by simp; omega) (by simp; omega)]
  rfl

theorem pushBack_ok (c : OCls α) (hr : c.reloc = true) {v : OVec α} {xs zs : List α} (h : Inv v xs zs) (a : α) (hn : Fits c.sz (xs.length + 1))
    (hb : c.blind = true ∨ xs.length + 1 ≤ zs.length) :
    ∃ v' zs', pushBack c v a = .ok v' ∧ Inv v' (xs ++ [a]) zs' ∧ (c.blind = false → zs'.length = zs.length) ∧ Counts c 0 v v' := by
  obtain ⟨v1, e1, b1, a1, s1, m1, r1⟩ := reserve_blk c hr h.blk hn
  have hs := h.size
  obtain ⟨ys, ez⟩ := h.pre
  have i1 : Inv v1 xs zs := ⟨b1, by rw [s1]; exact hs, ys, ez⟩
  obtain ⟨v2, zs2, e2, b2, p2, l2, w2⟩ := write_end c i1 (as := [a]) a1 hb
  rw [pushBack, hs, e1]
  simp only [Res.ok_bind]
  rw [e2]
  have c1 : Counts c 0 v v1 := ⟨0, by omega, by simp [r1]⟩
  refine ⟨_, zs2, rfl, ⟨b2.congr rfl rfl, ?_, p2⟩, l2, c1.trans w2.counts⟩
  simp [w2.size, s1, hs]

theorem pushBack_ub (c : OCls α) (hr : c.reloc = true) (hb : c.blind = false) {v : OVec α} {xs zs : List α} (h : Inv v xs zs) (a : α)
    (hn : Fits c.sz (xs.length + 1)) (hgt : zs.length < xs.length + 1) : pushBack c v a = .ub .uninit := by
  obtain ⟨v1, e1, b1, a1, s1, m1, r1⟩ := reserve_blk c hr h.blk hn
  have hs := h.size
  have hl := h.le
  rw [pushBack, hs, e1]
  simp only [Res.ok_bind]
  rw [write_ub c hb b1 (by omega) (by simp; omega) (by simp; omega)]
  rfl

theorem insert_ok (c : OCls α) (hr : c.reloc = true) {v : OVec α} {xs zs : List α} (h : Inv v xs zs) {i : Nat} (as : List α)
    (hi : i ≤ xs.length) (hn : Fits c.sz (xs.length + as.length)) (hb : c.blind = true ∨ xs.length + as.length ≤ zs.length) :
    ∃ v' zs', insert c v i as = .ok (v', none) ∧ Inv v' (xs.take i ++ as ++ xs.drop i) zs' ∧ (c.blind = false → zs'.length = zs.length) ∧
      Counts c 0 v v' := by
  have hs := h.size
  obtain ⟨v1, zs1, e1, i1, l1, c1, -⟩ := resize_ok c hr h c.dflt hn hb
  rw [List.take_of_length_le (by omega), Nat.add_sub_cancel_left] at i1
  obtain ⟨ys, ez⟩ := i1.pre
  have hl1 := i1.le
  simp only [List.length_append, List.length_replicate] at hl1
  have ht : (zs1.drop i).take (xs.length - i) = xs.drop i := by
    rw [ez, List.append_assoc, List.drop_append_of_le_length hi, List.take_append_of_le_length (by simp)]
    exact List.take_of_length_le (by simp)
  have htk : zs1.take i = xs.take i := by
    rw [ez, List.append_assoc, List.take_append_of_le_length hi]
  rw [insert, if_neg (by omega), hs, e1]
  simp only [Res.ok_bind]
  rw [readN_blk c i1.blk _ _ (by omega), Res.ok_bind, ht]
  obtain ⟨v2, e2, b2, w2⟩ := write_in c i1.blk (i := i + as.length) (as := xs.drop i) (by simp; omega)
  rw [e2, Res.ok_bind]
  have hlen2 : (zs1.take (i + as.length) ++ xs.drop i ++ zs1.drop (i + as.length + (xs.drop i).length)).length = zs1.length := by
    simp; omega
  obtain ⟨v3, e3, b3, w3⟩ := write_in c b2 (i := i) (as := as) (by rw [hlen2]; omega)
  rw [e3, Res.ok_bind]
  have e0 : (zs1.take (i + as.length) ++ xs.drop i ++ zs1.drop (i + as.length + (xs.drop i).length)).take i ++ as ++
      (zs1.take (i + as.length) ++ xs.drop i ++ zs1.drop (i + as.length + (xs.drop i).length)).drop (i + as.length)
      = xs.take i ++ as ++ xs.drop i ++ zs1.drop (xs.length + as.length) := by
    have hk : (zs1.take (i + as.length)).length = i + as.length := by simp; omega
    rw [List.append_assoc (zs1.take _), List.take_append_of_le_length (by omega), List.take_take, Nat.min_eq_left (by omega), htk,
      List.drop_append_of_le_length (by omega), List.drop_of_length_le (by omega)]
    simp only [List.nil_append, List.append_assoc, List.length_drop]
    rw [show i + as.length + (xs.length - i) = xs.length + as.length by omega]
  rw [e0] at b3
  refine ⟨v3, _, rfl, ⟨b3, ?_, ⟨_, rfl⟩⟩, fun hf => ?_, (c1.trans w2.counts).trans w3.counts⟩
  · rw [w3.size, w2.size, i1.size]; simp; omega
  · rw [← l1 hf, ← e0]; simp; omega

theorem insert_ub (c : OCls α) (hr : c.reloc = true) (hb : c.blind = false) {v : OVec α} {xs zs : List α} (h : Inv v xs zs) {i : Nat}
    (as : List α) (hi : i ≤ xs.length) (hn : Fits c.sz (xs.length + as.length)) (hgt : zs.length < xs.length + as.length) :
    insert c v i as = .ub .uninit := by
  rw [insert, if_neg (by rw [h.size]; omega), h.size, resize_ub c hr hb h c.dflt hn hgt]
  rfl

theorem fits_mono {sz n m : Nat} (h : Fits sz n) (hm : m ≤ n) : Fits sz m := by
  unfold Fits at *
  exact Nat.lt_of_le_of_lt (Nat.mul_le_mul_left _ (by omega)) h

/-- A size within the capacity needs no memory. -/
theorem shrink_ok (c : OCls α) {v : OVec α} {ws xs zs : List α} (hb : Blk v zs) (hs : v.size = ws.length) {n : Nat} (a : α) (hn : n ≤ ws.length)
    (hx : xs.length = n) (hp : ∃ ys, zs = xs ++ ys) (hal : ws.length ≤ v.alloc) :
    ∃ v', resize c v n a = .ok v' ∧ Inv v' xs zs ∧ Counts c 0 v v' := by
  rw [resize, reserve, if_pos (by omega)]
  simp only [Res.ok_bind]
  rw [if_neg (by omega)]
  exact ⟨_, rfl, ⟨hb.congr rfl rfl, hx.symm, hp⟩, ⟨0, rfl, by simp⟩⟩

theorem erase_ok (c : OCls α) {v : OVec α} {xs zs : List α} (h : Inv v xs zs) {f l : Nat} (h1 : f < l) (h2 : l < xs.length) :
    ∃ v' zs', erase c v f l = .ok (v', none) ∧ Inv v' (xs.take f ++ xs.drop l) zs' ∧ zs'.length = zs.length ∧ Counts c 0 v v' := by
  have hs := h.size
  have hle := h.le
  have hob := h.blk.objs
  obtain ⟨ys, ez⟩ := h.pre
  rw [erase, if_neg (by omega), hs, readN_blk c h.blk _ _ (by omega), Res.ok_bind]
  have ht : (zs.drop l).take (xs.length - l) = xs.drop l := by
    rw [ez, List.drop_append_of_le_length (by omega), List.take_append_of_le_length (by simp)]
    exact List.take_of_length_le (by simp)
  have htk : zs.take f = xs.take f := by rw [ez, List.take_append_of_le_length (by omega)]
  rw [ht]
  obtain ⟨v2, e2, b2, w2⟩ := write_in c h.blk (i := f) (as := xs.drop l) (by simp; omega)
  rw [e2, Res.ok_bind]
  rw [htk] at b2
  obtain ⟨v3, e3, i3, c3⟩ := shrink_ok c (ws := xs) (xs := xs.take f ++ xs.drop l) (n := xs.length - (l - f)) b2
    (by rw [w2.size, hs]) c.dflt (by omega) (by simp; omega) ⟨_, rfl⟩ (by rw [w2.alloc]; omega)
  rw [w2.size, hs, e3, Res.ok_bind]
  exact ⟨v3, _, rfl, i3, by simp; omega, w2.counts.trans c3⟩

theorem assign_ok (c : OCls α) (hr : c.reloc = true) {v : OVec α} {xs zs : List α} (h : Inv v xs zs) (as : List α) (hn : Fits c.sz as.length)
    (hb : c.blind = true ∨ as.length ≤ zs.length) :
    ∃ v' zs', assign c v as = .ok v' ∧ Inv v' as zs' ∧ (c.blind = false → zs'.length = zs.length) ∧ Counts c 0 v v' := by
  obtain ⟨v1, zs1, e1, i1, l1, c1, -⟩ := resize_ok c hr h c.dflt hn hb
  have hl1 := i1.le
  simp only [List.length_append, List.length_replicate, List.length_take] at hl1
  obtain ⟨v2, e2, b2, w2⟩ := write_in c i1.blk (i := 0) (as := as) (by omega)
  rw [assign, e1, Res.ok_bind]
  refine ⟨v2, _, e2, ⟨b2, ?_, ⟨_, by rw [List.take_zero, List.nil_append]⟩⟩, fun hf => ?_, c1.trans w2.counts⟩
  · rw [w2.size, i1.size]; simp; omega
  · rw [← l1 hf]; simp; omega

theorem assign_ub (c : OCls α) (hr : c.reloc = true) (hb : c.blind = false) {v : OVec α} {xs zs : List α} (h : Inv v xs zs) (as : List α)
    (hn : Fits c.sz as.length) (hgt : zs.length < as.length) : assign c v as = .ub .uninit := by
  rw [assign, resize_ub c hr hb h c.dflt hn hgt]
  rfl

theorem at_inv (c : OCls α) {v : OVec α} {xs zs : List α} (h : Inv v xs zs) (i : Nat) :
    at_ c v i = .ok (match xs[i]? with | some a => .val a | none => .exc .invalidVectorIndex) := by
  have hle := h.le
  obtain ⟨ys, ez⟩ := h.pre
  rw [at_, h.size]
  split
  · rename_i hge; rw [List.getElem?_eq_none hge]
  · rename_i hlt
    rw [readO_blk c h.blk (by omega), List.getElem?_eq_getElem (by omega)]
    subst ez
    simp only [Res.ok_bind]
    rw [List.getElem_append_left (by omega)]

/-- The number of objects that are ready to be assigned to after a call. -/
def readyAfter (r : Nat) : Op α → Nat
  | .clear => 0
  | _ => r

/-- 1 for `emplace_back`. -/
def isEmplace : Op α → Nat
  | .emplaceBack _ => 1
  | _ => 0

theorem step_ok (c : OCls α) (hr : c.reloc = true) {v : OVec α} {xs zs : List α} (h : Inv v xs zs) (op : Op α)
    (hp : VPre c.sz (xs, []) (seqOp op)) (hb : c.blind = true ∨ (after c.dflt xs op).length ≤ zs.length) :
    ∃ v' zs', step c v op = .ok (v', reported c.dflt xs op) ∧ Inv v' (after c.dflt xs op) zs' ∧
      (c.blind = false → zs'.length = readyAfter zs.length op) ∧ Counts c (isEmplace op) v v' := by
  have hs := h.size
  have hle := h.le
  cases op with
  | pushBack a =>
    obtain ⟨v', zs', e, i, l, k⟩ := pushBack_ok c hr h a hp (hb.imp id (by simp [after, vstep, seqOp]))
    exact ⟨v', zs', by rw [step, e]; rfl, i, l, k⟩
  | emplaceBack a =>
    obtain ⟨v', zs', e, i, l, k⟩ := pushBack_ok c hr h a hp (hb.imp id (by simp [after, vstep, seqOp]))
    refine ⟨{ v' with made := v'.made + 1 }, zs', by rw [step, emplaceBack, e]; rfl, ⟨i.blk.congr rfl rfl, i.size, i.pre⟩, l, ?_⟩
    obtain ⟨n, k1, k2⟩ := k
    exact ⟨n, by show v'.made + 1 = v.made + n + 1; omega, k2⟩
  | popBack =>
    have hne : xs ≠ [] := hp
    have hpos : 0 < xs.length := List.length_pos_iff.mpr hne
    obtain ⟨ys, ez⟩ := h.pre
    have hg : readO c v.data (v.size - 1) = .ok (xs.getLast hne) := by
      rw [hs, readO_blk c h.blk (by omega), List.getLast_eq_getElem]
      subst ez
      rw [List.getElem_append_left (by omega)]
    refine ⟨{ v with size := v.size - 1 }, zs, ?_, ⟨h.blk.congr rfl rfl, ?_, ?_⟩, fun _ => rfl, Counts.refl c v⟩
    · rw [step, popBack, if_neg (by omega), hg]
      simp [reported, seqOp, vstep, List.getLast?_eq_some_getLast hne]
    · simp [after, seqOp, vstep, hs]
    · refine ⟨[xs.getLast hne] ++ ys, ?_⟩
      rw [ez]
      show xs ++ ys = xs.dropLast ++ ([xs.getLast hne] ++ ys)
      rw [← List.append_assoc, List.dropLast_concat_getLast]
  | insert i as =>
    by_cases hi : i ≤ xs.length
    · have ea : after c.dflt xs (.insert i as) = xs.take i ++ as ++ xs.drop i := by simp [after, seqOp, vstep, hi]
      have er : reported c.dflt xs (.insert i as) = .done := by simp [reported, seqOp, vstep, hi]
      rw [ea] at hb ⊢
      have hlen : (xs.take i ++ as ++ xs.drop i).length = xs.length + as.length := by simp; omega
      obtain ⟨v', zs', e, i', l, k⟩ := insert_ok c hr h as hi hp (by rw [← hlen]; exact hb)
      exact ⟨v', zs', by rw [step, e, er]; rfl, i', l, k⟩
    · have ea : after c.dflt xs (.insert i as) = xs := by simp [after, seqOp, vstep, hi]
      have er : reported c.dflt xs (.insert i as) = .exc .invalidVectorIndex := by simp [reported, seqOp, vstep, hi]
      exact ⟨v, zs, by rw [step, insert, if_pos (by omega), er]; rfl, by rw [ea]; exact h, fun _ => rfl, Counts.refl c v⟩
  | erase f l =>
    by_cases hi : f < l ∧ l < xs.length
    · have ea : after c.dflt xs (.erase f l) = xs.take f ++ xs.drop l := by simp [after, seqOp, vstep, hi]
      have er : reported c.dflt xs (.erase f l) = .done := by simp [reported, seqOp, vstep, hi]
      obtain ⟨v', zs', e, i', l', k⟩ := erase_ok c h hi.1 hi.2
      exact ⟨v', zs', by rw [step, e, er]; rfl, by rw [ea]; exact i', fun _ => l', k⟩
    · have ea : after c.dflt xs (.erase f l) = xs := by simp [after, seqOp, vstep, hi]
      have er : reported c.dflt xs (.erase f l) = .exc .invalidVectorIndex := by simp [reported, seqOp, vstep, hi]
      exact ⟨v, zs, by rw [step, erase, if_pos (by omega), er]; rfl, by rw [ea]; exact h, fun _ => rfl, Counts.refl c v⟩
  | resize n a =>
    have hlen : (after c.dflt xs (.resize n a)).length = n := by simp [after, seqOp, vstep]; omega
    obtain ⟨v', zs', e, i', l, k, -⟩ := resize_ok c hr h a hp (by rw [hlen] at hb; exact hb)
    exact ⟨v', zs', by rw [step, e]; rfl, i', l, k⟩
  | reserve n =>
    obtain ⟨v', e, b, -, s, m, r⟩ := reserve_blk c hr h.blk hp
    exact ⟨v', zs, by rw [step, e]; rfl, ⟨b, by rw [s]; exact hs, h.pre⟩, fun _ => rfl, ⟨0, by rw [m]; rfl, by rw [r]; simp⟩⟩
  | assign as =>
    obtain ⟨v', zs', e, i', l, k⟩ := assign_ok c hr h as hp hb
    exact ⟨v', zs', by rw [step, e]; rfl, i', l, k⟩
  | clear =>
    exact ⟨clear v, [], rfl, ⟨blk_null rfl rfl, rfl, ⟨[], rfl⟩⟩, fun _ => rfl, Counts.refl c v⟩
  | at_ i =>
    exact ⟨v, zs, by rw [step, at_inv c h i]; rfl, h, fun _ => rfl, Counts.refl c v⟩

theorem step_ub (c : OCls α) (hr : c.reloc = true) (hb : c.blind = false) {v : OVec α} {xs zs : List α} (h : Inv v xs zs) (op : Op α)
    (hp : VPre c.sz (xs, []) (seqOp op)) (hgt : zs.length < (after c.dflt xs op).length) : step c v op = .ub .uninit := by
  have hs := h.size
  have hle := h.le
  cases op with
  | pushBack a => rw [step, pushBack_ub c hr hb h a hp (by simpa [after, seqOp, vstep] using hgt)]; rfl
  | emplaceBack a => rw [step, emplaceBack, pushBack_ub c hr hb h a hp (by simpa [after, seqOp, vstep] using hgt)]; rfl
  | popBack => simp [after, seqOp, vstep] at hgt; omega
  | insert i as =>
    by_cases hi : i ≤ xs.length
    · rw [step, insert_ub c hr hb h as hi hp (by simp [after, seqOp, vstep, hi] at hgt; omega)]; rfl
    · simp [after, seqOp, vstep, hi] at hgt; omega
  | erase f l =>
    by_cases hi : f < l ∧ l < xs.length
    · simp [after, seqOp, vstep, hi] at hgt; omega
    · simp [after, seqOp, vstep, hi] at hgt; omega
  | resize n a => rw [step, resize_ub c hr hb h a hp (by simp [after, seqOp, vstep] at hgt; omega)]; rfl
  | reserve n => simp [after, seqOp, vstep] at hgt; omega
  | assign as => rw [step, assign_ub c hr hb h as hp (by simpa [after, seqOp, vstep] using hgt)]; rfl
  | clear => simp [after, seqOp, vstep] at hgt
  | at_ i => simp [after, seqOp, vstep] at hgt; omega

theorem ofList_inv (c : OCls α) (hz : c.zeroVal ≠ none ∨ c.blind = true) (xs : List α) :
    ∃ v, ofList c xs = .ok v ∧ Inv v xs xs ∧ v.made = xs.length ∧ v.released = 0 ∧ v.alloc = xs.length := by
  have key : ∀ (as done : List α), put c (some (done.map OCell.obj ++ List.replicate as.length OCell.zero)) done.length as
      = .ok (some ((done ++ as).map OCell.obj), 0) := by
    intro as
    induction as with
    | nil => intro done; simp [put]
    | cons a as ih =>
      intro done
      have h1 : (done.map OCell.obj ++ List.replicate (a :: as).length OCell.zero)[done.length]? = some OCell.zero := by
        rw [List.getElem?_append_right (by simp)]; simp
      have h2 : (done.map OCell.obj ++ List.replicate (a :: as).length OCell.zero).set done.length (.obj a)
          = (done ++ [a]).map OCell.obj ++ List.replicate as.length OCell.zero := by
        rw [List.set_append_right _ _ (by simp)]
        simp [List.replicate_succ]
      have h3 := ih (done ++ [a])
      rw [List.length_append, List.length_singleton] at h3
      have h4 : over c (OCell.zero : OCell α) = .ok 0 := by
        rw [over, if_pos (hz.symm)]
      rw [put, h1]
      simp only [h4, Res.ok_bind, h2, h3, List.append_assoc, List.singleton_append]
  have h := key xs []
  simp only [List.map_nil, List.nil_append, List.length_nil] at h
  refine ⟨⟨some (block xs 0), xs.length, xs.length, xs.length, 0⟩, ?_, ⟨⟨⟨0, by simp, .inl rfl⟩, by simp⟩, rfl, ⟨[], by simp⟩⟩, rfl, rfl, rfl⟩
  rw [ofList, write, mkN, h]
  simp [block]

theorem run_ok (c : OCls α) (hr : c.reloc = true) : ∀ (ops : List (Op α)) (v : OVec α) (xs zs : List α), Inv v xs zs →
    OPres c.sz c.dflt xs ops → (c.blind = true ∨ NeverAbove c.dflt zs.length xs ops) →
    ∃ v' zs', run c v ops = .ok (v', reports c.dflt xs ops) ∧ Inv v' (final c.dflt xs ops) zs' ∧ Counts c (emplaced ops) v v' := by
  intro ops
  induction ops with
  | nil => intro v xs zs h _ _; exact ⟨v, zs, rfl, h, Counts.refl c v⟩
  | cons op ops ih =>
    intro v xs zs h hp hw
    obtain ⟨v1, zs1, e1, i1, l1, k1⟩ := step_ok c hr h op hp.1 (hw.imp id And.left)
    have hw1 : c.blind = true ∨ NeverAbove c.dflt zs1.length (after c.dflt xs op) ops := by
      cases hb : c.blind with
      | true => exact .inl rfl
      | false =>
        refine .inr ?_
        rw [l1 hb]
        have := (hw.resolve_left (by simp [hb])).2
        cases op <;> exact this
    obtain ⟨v2, zs2, e2, i2, k2⟩ := ih v1 _ zs1 i1 hp.2 hw1
    refine ⟨v2, zs2, ?_, i2, ?_⟩
    · rw [run, e1]
      simp only [Res.ok_bind]
      rw [e2]
      rfl
    · have hem : emplaced (op :: ops) = isEmplace op + emplaced ops := by cases op <;> simp [emplaced, isEmplace] <;> omega
      rw [hem]
      exact k1.trans k2

theorem run_ub (c : OCls α) (hr : c.reloc = true) (hb : c.blind = false) : ∀ (ops : List (Op α)) (v : OVec α) (xs zs : List α), Inv v xs zs →
    OPres c.sz c.dflt xs ops → ¬ NeverAbove c.dflt zs.length xs ops → run c v ops = .ub .uninit := by
  intro ops
  induction ops with
  | nil => intro v xs zs h _ hw; exact absurd trivial hw
  | cons op ops ih =>
    intro v xs zs h hp hw
    rcases Nat.lt_or_ge zs.length (after c.dflt xs op).length with hlt | hge
    · rw [run, step_ub c hr hb h op hp.1 hlt]; rfl
    · obtain ⟨v1, zs1, e1, i1, l1, -⟩ := step_ok c hr h op hp.1 (.inr hge)
      have hw1 : ¬ NeverAbove c.dflt zs1.length (after c.dflt xs op) ops := by
        rw [l1 hb]
        intro hc
        refine hw ⟨hge, ?_⟩
        cases op <;> exact hc
      rw [run, e1]
      simp only [Res.ok_bind]
      rw [ih v1 _ zs1 i1 hp.2 hw1]
      rfl

theorem write_made {c : OCls α} {v v' : OVec α} {i : Nat} {as : List α} (h : write c v i as = .ok v') :
    v'.made = v.made + as.length ∧ v'.size = v.size := by
  rw [write] at h
  obtain ⟨⟨d, k⟩, -, h2⟩ := Res.bind_eq_ok.mp h
  cases h2
  exact ⟨rfl, rfl⟩

theorem reserve_made {c : OCls α} {v v' : OVec α} {n : Nat} (h : reserve c v n = .ok v') : v'.made = v.made ∧ v'.size = v.size := by
  rw [reserve] at h
  split at h
  · cases h; exact ⟨rfl, rfl⟩
  · obtain ⟨t, -, h2⟩ := Res.bind_eq_ok.mp h
    cases h2
    exact ⟨rfl, rfl⟩

theorem resize_made {c : OCls α} {v v' : OVec α} {n : Nat} {a : α} (h : resize c v n a = .ok v') :
    v'.made = v.made + (n - v.size) ∧ v'.size = n := by
  rw [resize] at h
  obtain ⟨v1, h1, h⟩ := Res.bind_eq_ok.mp h
  obtain ⟨m1, s1⟩ := reserve_made h1
  dsimp only at h
  split at h
  · obtain ⟨v2, h2, h⟩ := Res.bind_eq_ok.mp h
    cases h
    have := (write_made h2).1
    simp at this
    refine ⟨?_, rfl⟩
    show v2.made = _
    rw [this, m1, s1]
  · cases h
    refine ⟨?_, rfl⟩
    show v1.made = _
    omega

theorem pushBack_made {c : OCls α} {v v' : OVec α} {a : α} (h : pushBack c v a = .ok v') : v'.made = v.made + 1 ∧ v'.size = v.size + 1 := by
  rw [pushBack] at h
  obtain ⟨v1, h1, h⟩ := Res.bind_eq_ok.mp h
  obtain ⟨v2, h2, h⟩ := Res.bind_eq_ok.mp h
  obtain ⟨m1, s1⟩ := reserve_made h1
  obtain ⟨m2, s2⟩ := write_made h2
  cases h
  exact ⟨by show v2.made = _; rw [m2, m1]; rfl, by show v2.size + 1 = _; rw [s2, s1]⟩

theorem step_made {c : OCls α} {v v' : OVec α} {op : Op α} {r : VRet α} (h : step c v op = .ok (v', r)) :
    v'.size + isEmplace op + v.made ≤ v.size + v'.made := by
  cases op with
  | pushBack a =>
    obtain ⟨v1, h1, h2⟩ := Res.bind_eq_ok.mp h
    have := pushBack_made h1
    cases h2
    simp only [isEmplace]; omega
  | emplaceBack a =>
    obtain ⟨v1, h1, h2⟩ := Res.bind_eq_ok.mp h
    obtain ⟨v2, h3, h4⟩ := Res.bind_eq_ok.mp h1
    have := pushBack_made h3
    cases h4
    cases h2
    simp only [isEmplace]; omega
  | popBack =>
    obtain ⟨⟨v1, a⟩, h1, h2⟩ := Res.bind_eq_ok.mp h
    rw [popBack] at h1
    split at h1
    · cases h1
    · obtain ⟨b, -, h3⟩ := Res.bind_eq_ok.mp h1
      cases h3
      cases h2
      simp only [isEmplace]; omega
  | insert i as =>
    obtain ⟨⟨v1, x⟩, h1, h2⟩ := Res.bind_eq_ok.mp h
    rw [OVec.insert] at h1
    split at h1
    · cases h1; cases h2; simp only [isEmplace]; omega
    · obtain ⟨w1, g1, h1⟩ := Res.bind_eq_ok.mp h1
      obtain ⟨t, -, h1⟩ := Res.bind_eq_ok.mp h1
      obtain ⟨w2, g2, h1⟩ := Res.bind_eq_ok.mp h1
      obtain ⟨w3, g3, h1⟩ := Res.bind_eq_ok.mp h1
      have := resize_made g1
      have := write_made g2
      have := write_made g3
      cases h1
      cases h2
      simp only [isEmplace]; omega
  | erase f l =>
    obtain ⟨⟨v1, x⟩, h1, h2⟩ := Res.bind_eq_ok.mp h
    rw [OVec.erase] at h1
    split at h1
    · cases h1; cases h2; simp only [isEmplace]; omega
    · obtain ⟨t, -, h1⟩ := Res.bind_eq_ok.mp h1
      obtain ⟨w1, g1, h1⟩ := Res.bind_eq_ok.mp h1
      obtain ⟨w2, g2, h1⟩ := Res.bind_eq_ok.mp h1
      have := write_made g1
      have := resize_made g2
      cases h1
      cases h2
      simp only [isEmplace]; omega
  | resize n a =>
    obtain ⟨v1, h1, h2⟩ := Res.bind_eq_ok.mp h
    have := resize_made h1
    cases h2
    simp only [isEmplace]; omega
  | reserve n =>
    obtain ⟨v1, h1, h2⟩ := Res.bind_eq_ok.mp h
    have := reserve_made h1
    cases h2
    simp only [isEmplace]; omega
  | assign as =>
    obtain ⟨v1, h1, h2⟩ := Res.bind_eq_ok.mp h
    rw [assign] at h1
    obtain ⟨w1, g1, h1⟩ := Res.bind_eq_ok.mp h1
    have := resize_made g1
    have := write_made h1
    cases h2
    simp only [isEmplace]; omega
  | clear => cases h; simp [isEmplace, clear]
  | at_ i =>
    obtain ⟨x, h1, h2⟩ := Res.bind_eq_ok.mp h
    cases h2
    simp only [isEmplace]; omega

theorem run_made {c : OCls α} : ∀ (ops : List (Op α)) {v v' : OVec α} {rs : List (VRet α)}, run c v ops = .ok (v', rs) →
    v'.size + emplaced ops + v.made ≤ v.size + v'.made := by
  intro ops
  induction ops with
  | nil => intro v v' rs h; cases h; simp [emplaced]
  | cons op ops ih =>
    intro v v' rs h
    obtain ⟨⟨v1, r1⟩, h1, h⟩ := Res.bind_eq_ok.mp h
    obtain ⟨⟨v2, r2⟩, h2, h⟩ := Res.bind_eq_ok.mp h
    have a := step_made h1
    have b := ih h2
    cases h
    have hem : emplaced (op :: ops) = isEmplace op + emplaced ops := by cases op <;> simp [emplaced, isEmplace] <;> omega
    omega

theorem elems_of_inv (c : OCls α) {v : OVec α} {xs zs : List α} (h : Inv v xs zs) : SeenElems c v xs := ⟨h.size, at_inv c h⟩

end Eni.OVec
