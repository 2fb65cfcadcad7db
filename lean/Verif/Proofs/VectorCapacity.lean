import Verif.Spec.VectorCapacity
import Verif.Proofs.Vector
/-!
# Capacity and memory along the operations of a `Vector`

Helper lemmas, no property statements.
-/
namespace Eni.Vec
open Spec
variable {α β γ : Type} {cfg : Cfg α} {grant : Bool} {v : Vec α} {xs : List α}

theorem room_cells (v : Vec α) : room v = (cells v.data).length := by
  unfold room cells; cases v.data <;> rfl

theorem snug_def {v : Vec α} : Snug v ↔ v.alloc ≤ room v ∧ (0 < v.alloc → room v < 2 * v.alloc) ∧ (v.alloc = 0 → room v = 0) := Iff.rfl

/-- a call that neither fails nor touches the capacity or the block -/
def Keep (v : Vec α) (x : Res (Vec α × Ret β)) : Prop :=
  ∀ v' b, x = .ok (v', b) → (∃ y, b = .val y) ∧ v'.alloc = v.alloc ∧ room v' = room v

/-- a call that asks for room for `n` elements -/
def Grew (grant : Bool) (v : Vec α) (n : Nat) (x : Res (Vec α × Ret β)) : Prop :=
  ∀ v' b, x = .ok (v', b) →
    (n ≤ v.alloc → (∃ y, b = .val y) ∧ v'.alloc = v.alloc ∧ room v' = room v) ∧
    (v.alloc < n → grant = true → (∃ y, b = .val y) ∧ v'.alloc = n ∧ n ≤ room v' ∧ room v' < 2 * n) ∧
    (v.alloc < n → grant = false → b = .exc .noMemory ∧ v' = v)

theorem Grew.andThen {n : Nat} {x : Res (Vec α × Ret β)} {f : Vec α → β → Res (Vec α × Ret γ)} (h : Grew grant v n x)
    (hf : ∀ v' b, x = .ok (v', .val b) → Keep v' (f v' b)) : Grew grant v n (Vec.andThen x f) := by
  intro v' b e
  match x, h, hf, e with
  | .ok (v1, .val y), h, hf, e =>
    obtain ⟨h1, h2, h3⟩ := h v1 _ rfl
    obtain ⟨k1, k2, k3⟩ := hf v1 y rfl v' b e
    refine ⟨fun hn => ⟨k1, ?_, ?_⟩, fun hn hg => ⟨k1, ?_, ?_, ?_⟩, fun hn hg => ?_⟩
    · rw [k2]; exact (h1 hn).2.1
    · rw [k3]; exact (h1 hn).2.2
    · rw [k2]; exact (h2 hn hg).2.1
    · rw [k3]; exact (h2 hn hg).2.2.1
    · rw [k3]; exact (h2 hn hg).2.2.2
    · exact absurd (h3 hn hg).1 (by simp)
  | .ok (v1, .exc y), h, hf, e =>
    simp only [Vec.andThen, Res.ok.injEq, Prod.mk.injEq] at e
    obtain ⟨rfl, rfl⟩ := e
    obtain ⟨h1, h2, h3⟩ := h v1 _ rfl
    refine ⟨fun hn => ?_, fun hn hg => ?_, fun hn hg => ?_⟩
    · obtain ⟨⟨y, hy⟩, _⟩ := h1 hn; simp at hy
    · obtain ⟨⟨y, hy⟩, _⟩ := h2 hn hg; simp at hy
    · obtain ⟨hy, hv⟩ := h3 hn hg
      simp only [Ret.exc.injEq] at hy
      exact ⟨by rw [hy], hv⟩

theorem keep_ret {v : Vec α} {d : VData α} {n : Nat} {b : β} (hd : (cells d).length = (cells v.data).length) :
    Keep v (ret ⟨d, n, v.alloc⟩ b) := by
  intro v' b' h
  simp only [ret, Res.ok.injEq, Prod.mk.injEq] at h
  obtain ⟨rfl, rfl⟩ := h
  exact ⟨⟨_, rfl⟩, rfl, by rw [room_cells, room_cells]; exact hd⟩

theorem keep_bind {δ : Type} {x : Res δ} {f : δ → Res (Vec α × Ret β)} (h : ∀ d, x = .ok d → Keep v (f d)) : Keep v (x >>= f) := by
  intro v' b e
  obtain ⟨d, h1, h2⟩ := Res.bind_eq_ok.mp e
  exact h d h1 v' b h2

theorem store_len {d d' : VData α} {i : Nat} {ys : List (Option α)} (h : store d i ys = .ok d') : (cells d').length = (cells d).length := by
  unfold store at h
  split at h
  · simp only [Res.ok.injEq] at h; rw [h]
  · cases d with
    | null => simp at h
    | dangling => simp at h
    | buf cs =>
      simp only at h
      split at h
      · simp only [Res.ok.injEq] at h
        subst h
        simp only [cells, overwrite, List.length_append, List.length_take, List.length_drop]
        omega
      · simp at h

theorem reserve_grew (R : Rep v xs) {n : Nat} (hn : Fits cfg.sz n) : Grew grant v n (reserve cfg grant v n) := by
  intro v' b e
  have hroom : v.alloc < n → grant = true → room v' < 2 * n := by
    intro hlt hg
    have hn63 := fits_le hn
    obtain ⟨t, ht, htn, ht2⟩ := growLoop_spec (c := v.alloc) (by omega : n ≤ 9223372036854775808) hlt
    have hbytes : cfg.sz * t < 18446744073709551616 := by
      unfold Fits at hn
      have : cfg.sz * t ≤ cfg.sz * (2 * n) := Nat.mul_le_mul_left _ (by omega)
      omega
    have hpos := cfg.sz_pos
    have hdiv : cfg.sz * t / cfg.sz = t := Nat.mul_div_cancel_left _ hpos
    have hnz : cfg.sz * t ≠ 0 := Nat.mul_ne_zero (by omega) (by omega)
    unfold reserve at e
    rw [if_neg (by omega), if_neg (by unfold maxSize; omega), ht] at e
    simp only [Res.ok_bind] at e
    rw [if_neg (by unfold maxSize; omega), w64_of_lt hbytes] at e
    subst hg
    cases hd : v.data with
    | dangling => exact absurd hd R.nd
    | null =>
      simp only [hd, realloc, if_true, Res.ok_bind, ret, Res.ok.injEq, Prod.mk.injEq, hdiv] at e
      rw [← e.1, room_cells]
      simpa [cells] using ht2
    | buf cs =>
      simp only [hd, realloc, hnz, if_false, if_true, Res.ok_bind, ret, Res.ok.injEq, Prod.mk.injEq, hdiv] at e
      rw [← e.1, room_cells]
      simp [cells]
      omega
  rcases reserve_spec (grant := grant) R hn with ⟨hle, h⟩ | ⟨hlt, ⟨hg, v1, h, R', ha⟩ | ⟨hg, h⟩⟩
  · rw [h] at e
    simp only [Res.ok.injEq, Prod.mk.injEq] at e
    obtain ⟨rfl, rfl⟩ := e
    exact ⟨fun _ => ⟨⟨_, rfl⟩, rfl, rfl⟩, fun h => by omega, fun h => by omega⟩
  · rw [h] at e
    simp only [Res.ok.injEq, Prod.mk.injEq] at e
    obtain ⟨rfl, rfl⟩ := e
    refine ⟨fun h => by omega, fun _ _ => ⟨⟨_, rfl⟩, ha, ?_, hroom hlt hg⟩, fun _ h => by simp [hg] at h⟩
    have := R'.cap
    rw [room_cells]; omega
  · rw [h] at e
    simp only [Res.ok.injEq, Prod.mk.injEq] at e
    obtain ⟨rfl, rfl⟩ := e
    exact ⟨fun h => by omega, fun _ h => by simp [hg] at h, fun _ _ => ⟨rfl, rfl⟩⟩

theorem resizeA_grew (R : Rep v xs) {n : Nat} (hn : Fits cfg.sz n) (a : VArg α) : Grew grant v n (resizeA cfg grant v n a) := by
  refine (reserve_grew R hn).andThen fun v' m _ => ?_
  split
  · exact keep_bind fun _ _ => keep_bind fun d hd => keep_ret (store_len hd)
  · exact keep_ret rfl

theorem resize_grew (R : Rep v xs) {n : Nat} (hn : Fits cfg.sz n) : Grew grant v n (resize cfg grant v n) := resizeA_grew R hn _

theorem pushBack_grew (R : Rep v xs) (hn : Fits cfg.sz (xs.length + 1)) (a : α) :
    Grew grant v (xs.length + 1) (pushBack cfg grant v (.val a)) := by
  have h63 := fits_le hn
  unfold pushBack
  rw [R.size_eq, w64_of_lt (by omega)]
  refine (reserve_grew R hn).andThen fun v' m _ => ?_
  exact keep_bind fun _ _ => keep_bind fun d hd => keep_ret (store_len hd)

theorem assignN_grew (R : Rep v xs) {n : Nat} (hn : Fits cfg.sz n) (a : α) : Grew grant v n (assignN cfg grant v n (.val a)) := by
  refine (resize_grew R hn).andThen fun v' m _ => ?_
  split
  · exact keep_ret rfl
  · exact keep_bind fun _ _ => keep_bind fun d hd => keep_ret (store_len hd)

theorem assignRange_grew (R : Rep v xs) (ys : List (Option α)) (hn : Fits cfg.sz ys.length) :
    Grew grant v ys.length (assignRange cfg grant v ys) := by
  refine (resize_grew R hn).andThen fun v' m _ => ?_
  exact keep_bind fun d hd => keep_ret (store_len hd)

theorem insertN_grew (R : Rep v xs) {i n : Nat} (hi : i ≤ xs.length) (hn : Fits cfg.sz (xs.length + n)) (a : α) :
    Grew grant v (xs.length + n) (insertN cfg grant v i n (.val a)) := by
  have h63 := fits_le hn
  have hs := R.size_eq
  unfold insertN
  rw [if_neg (by omega), hs, w64_of_lt (by omega)]
  refine (resize_grew R hn).andThen fun v' m _ => ?_
  split
  · intro _ _ h; simp at h
  · refine keep_bind fun _ _ => keep_bind fun d hd => ?_
    dsimp only
    split
    · exact keep_ret (store_len hd)
    · exact keep_bind fun _ _ => keep_bind fun d2 hd2 => keep_ret ((store_len hd2).trans (store_len hd))

theorem insertRange_grew (R : Rep v xs) {i : Nat} (ys : List (Option α)) (hi : i ≤ xs.length) (hn : Fits cfg.sz (xs.length + ys.length)) :
    Grew grant v (xs.length + ys.length) (insertRange cfg grant v i ys) := by
  have h63 := fits_le hn
  have hs := R.size_eq
  unfold insertRange
  rw [if_neg (by omega), hs, w64_of_lt (by omega)]
  refine (resize_grew R hn).andThen fun v' m _ => ?_
  split
  · intro _ _ h; simp at h
  · exact keep_bind fun _ _ => keep_bind fun d hd => keep_bind fun d2 hd2 => keep_ret ((store_len hd2).trans (store_len hd))

/-! steps -/

/-- what a step does to the capacities and the blocks -/
def StepCap (g : Bool) (s : Vec α × Vec α) (xs : List α × List α) (op : VOp α) (s' : Vec α × Vec α) (r : VRet α) : Prop :=
  (need xs op ≤ s.1.alloc ∨ g = true → r ≠ .exc .noMemory ∧ (s'.1.alloc, s'.2.alloc) = caps xs (s.1.alloc, s.2.alloc) op ∧
    Snug s'.1 ∧ Snug s'.2) ∧
  (¬(need xs op ≤ s.1.alloc ∨ g = true) → r = .exc .noMemory ∧ s' = s)

theorem grew_step {f : β → VRet α} (hf : ∀ b, f b ≠ .exc .noMemory) {w : Vec α} {l m : List α} {x : Res (Vec α × Ret β)} {op : VOp α}
    {s' : Vec α × Vec α} {r : VRet α} (S1 : Snug v) (S2 : Snug w) (h : Grew grant v (need (l, m) op) x)
    (hc : caps (l, m) (v.alloc, w.alloc) op = (max v.alloc (need (l, m) op), w.alloc))
    (e : report f w x = .ok (s', r)) : StepCap grant (v, w) (l, m) op s' r := by
  match x, h, e with
  | .ok (v', b), h, e =>
    obtain ⟨h1, h2, h3⟩ := h v' b rfl
    refine ⟨fun hn => ?_, fun hn => ?_⟩
    · have hv : (∃ y, b = .val y) ∧ v'.alloc = max v.alloc (need (l, m) op) ∧ Snug v' := by
        rw [snug_def] at S1 ⊢
        rcases Nat.lt_or_ge v.alloc (need (l, m) op) with hl | hl
        · obtain ⟨k1, k2, k3, k4⟩ := h2 hl (hn.resolve_left (by simp only; omega))
          exact ⟨k1, by omega, by omega, fun _ => by omega, fun _ => by omega⟩
        · obtain ⟨k1, k2, k3⟩ := h1 hl
          refine ⟨k1, by omega, ?_⟩
          rw [k2, k3]; exact S1
      obtain ⟨⟨y, rfl⟩, ha, hs⟩ := hv
      simp only [report, Res.ok.injEq, Prod.mk.injEq] at e
      obtain ⟨rfl, rfl⟩ := e
      exact ⟨hf y, by rw [hc, ← ha], hs, S2⟩
    · have hl : v.alloc < need (l, m) op ∧ grant = false := by
        constructor
        · exact Nat.lt_of_not_le fun h => hn (Or.inl h)
        · cases grant with
          | false => rfl
          | true => exact absurd (Or.inr rfl) hn
      obtain ⟨rfl, rfl⟩ := h3 hl.1 hl.2
      simp only [report, Res.ok.injEq, Prod.mk.injEq] at e
      obtain ⟨rfl, rfl⟩ := e
      exact ⟨rfl, rfl⟩

/-- steps that ask for nothing and leave the capacities and blocks alone -/
theorem idle_step {s s' : Vec α × Vec α} {xs : List α × List α} {op : VOp α} {r : VRet α} (S1 : Snug s.1) (S2 : Snug s.2)
    (hn : need xs op = 0) (hc : caps xs (s.1.alloc, s.2.alloc) op = (s.1.alloc, s.2.alloc)) (hr : r ≠ .exc .noMemory)
    (h1 : s'.1.alloc = s.1.alloc ∧ room s'.1 = room s.1) (h2 : s'.2 = s.2) : StepCap grant s xs op s' r := by
  refine ⟨fun _ => ⟨hr, by rw [hc, h1.1, h2], ?_, by rw [h2]; exact S2⟩, fun h => absurd (Or.inl (by omega)) h⟩
  rw [snug_def] at S1 ⊢
  rw [h1.1, h1.2]; exact S1

theorem keep_step {f : β → VRet α} (hf : ∀ b, f b ≠ .exc .noMemory) {w : Vec α} {xs : List α × List α} {x : Res (Vec α × Ret β)} {op : VOp α}
    {s' : Vec α × Vec α} {r : VRet α} (S1 : Snug v) (S2 : Snug w) (h : Keep v x) (hn : need xs op = 0)
    (hc : caps xs (v.alloc, w.alloc) op = (v.alloc, w.alloc)) (e : report f w x = .ok (s', r)) : StepCap grant (v, w) xs op s' r := by
  match x, h, e with
  | .ok (v', b), h, e =>
    obtain ⟨⟨y, rfl⟩, h1⟩ := h v' b rfl
    simp only [report, Res.ok.injEq, Prod.mk.injEq] at e
    obtain ⟨rfl, rfl⟩ := e
    exact idle_step S1 S2 hn hc (hf y) h1 rfl

theorem erase_keep (R : Rep v xs) {f l : Nat} (h : ¬(f ≥ l ∨ l ≥ v.size)) : Keep v (erase cfg v f l) := by
  unfold erase
  rw [if_neg h]
  refine keep_bind fun tail _ => keep_bind fun d hd => ?_
  have hle := R.le_alloc
  have hs := R.size_eq
  unfold resize resizeA
  rw [reserve_noalloc (by simp only; omega), andThen_val]
  simp only
  rw [if_neg (by omega)]
  simp only [ret, andThen_val]
  exact keep_ret (store_len hd)

theorem step_cap {g : Bool} {s s' : Vec α × Vec α} {xs : List α × List α} (R : Rep2 cfg s xs) (op : VOp α) (hp : VPre cfg.sz xs op)
    (S1 : Snug s.1) (S2 : Snug s.2) {r : VRet α} (e : step cfg g s op = .ok (s', r)) : StepCap g s xs op s' r := by
  obtain ⟨v, w⟩ := s
  obtain ⟨l, m⟩ := xs
  obtain ⟨R1, R2, F1, F2⟩ := R
  simp only at R1 R2 F1 F2 S1 S2
  have hs := R1.size_eq
  have hle := R1.le_alloc
  have hv : ∀ a : α, VRet.val a ≠ .exc .noMemory := fun _ => by simp
  cases op with
  | pushBack a => exact grew_step (fun _ => by simp) S1 S2 (pushBack_grew R1 hp a) rfl e
  | popBack =>
    exact keep_step hv S1 S2 (by unfold popBack; exact keep_bind fun _ _ => keep_ret rfl) rfl (by simp [caps, need]) e
  | insertN i n a =>
    by_cases hi : i ≤ l.length
    · exact grew_step (fun _ => by simp) S1 S2 (by simp only [need, if_pos hi]; exact insertN_grew R1 hi hp a) rfl e
    · simp only [step, insertN] at e
      rw [if_pos (by omega)] at e
      simp only [throw, report, Res.ok.injEq, Prod.mk.injEq] at e
      obtain ⟨rfl, rfl⟩ := e
      exact idle_step S1 S2 (by simp [need, hi]) (by simp [caps, need, hi]) (by simp) ⟨rfl, rfl⟩ rfl
  | insertRange i ys =>
    by_cases hi : i ≤ l.length
    · refine grew_step (fun _ => by simp) S1 S2 ?_ rfl e
      simp only [need, if_pos hi]
      have := insertRange_grew (cfg := cfg) (grant := g) R1 (ys.map some) hi (by simpa using (show Fits cfg.sz (l.length + ys.length) from hp))
      simpa using this
    · simp only [step, insertRange] at e
      rw [if_pos (by omega)] at e
      simp only [throw, report, Res.ok.injEq, Prod.mk.injEq] at e
      obtain ⟨rfl, rfl⟩ := e
      exact idle_step S1 S2 (by simp [need, hi]) (by simp [caps, need, hi]) (by simp) ⟨rfl, rfl⟩ rfl
  | erase f k =>
    by_cases h : f ≥ k ∨ k ≥ v.size
    · simp only [step, erase, if_pos h, throw, report, Res.ok.injEq, Prod.mk.injEq] at e
      obtain ⟨rfl, rfl⟩ := e
      exact idle_step S1 S2 rfl (by simp [caps, need]) (by simp) ⟨rfl, rfl⟩ rfl
    · exact keep_step (fun _ => by simp) S1 S2 (erase_keep R1 h) rfl (by simp [caps, need]) e
  | erase1 i =>
    by_cases h : i ≥ w64 (i + 1) ∨ w64 (i + 1) ≥ v.size
    · simp only [step, erase1, erase, if_pos h, throw, report, Res.ok.injEq, Prod.mk.injEq] at e
      obtain ⟨rfl, rfl⟩ := e
      exact idle_step S1 S2 rfl (by simp [caps, need]) (by simp) ⟨rfl, rfl⟩ rfl
    · exact keep_step (fun _ => by simp) S1 S2 (erase_keep R1 h) rfl (by simp [caps, need]) e
  | resize n => exact grew_step (fun _ => by simp) S1 S2 (resize_grew R1 hp) rfl e
  | resizeA n a => exact grew_step (fun _ => by simp) S1 S2 (resizeA_grew R1 hp _) rfl e
  | reserve n => exact grew_step (fun _ => by simp) S1 S2 (reserve_grew R1 hp) rfl e
  | assignN n a => exact grew_step (fun _ => by simp) S1 S2 (assignN_grew R1 hp a) rfl e
  | assignRange ys =>
    refine grew_step (fun _ => by simp) S1 S2 ?_ rfl e
    have := assignRange_grew (cfg := cfg) (grant := g) R1 (ys.map some) (by simpa using (show Fits cfg.sz ys.length from hp))
    simpa [need] using this
  | assignSelf =>
    refine keep_step (fun _ => by simp) S1 S2 ?_ rfl (by simp [caps, need]) e
    unfold assignSelf
    rw [resize_same R1, andThen_val]
    simp only [Bool.false_eq_true, if_false]
    exact keep_bind fun _ _ => keep_bind fun d hd => keep_ret (store_len hd)
  | clear =>
    simp only [step, clear_sim R1, report, Res.ok.injEq, Prod.mk.injEq] at e
    obtain ⟨rfl, rfl⟩ := e
    refine ⟨fun _ => ⟨by simp, rfl, ?_, S2⟩, fun h => absurd (Or.inl (Nat.zero_le _)) h⟩
    rw [snug_def]; simp [empty, room]
  | at_ i =>
    simp only [step, at_] at e
    split at e
    · simp only [throw, report, Res.ok.injEq, Prod.mk.injEq] at e
      obtain ⟨rfl, rfl⟩ := e
      exact idle_step S1 S2 rfl (by simp [caps, need]) (by simp) ⟨rfl, rfl⟩ rfl
    · exact keep_step hv S1 S2 (keep_bind fun _ _ => keep_ret rfl) rfl (by simp [caps, need]) e
  | index i =>
    simp only [step] at e
    obtain ⟨a, _, e⟩ := Res.bind_eq_ok.mp e
    simp only [Res.ok.injEq, Prod.mk.injEq] at e
    obtain ⟨rfl, rfl⟩ := e
    exact idle_step S1 S2 rfl (by simp [caps, need]) (by simp) ⟨rfl, rfl⟩ rfl
  | size =>
    simp only [step, Res.ok.injEq, Prod.mk.injEq] at e
    obtain ⟨rfl, rfl⟩ := e
    exact idle_step S1 S2 rfl (by simp [caps, need]) (by simp) ⟨rfl, rfl⟩ rfl
  | swap =>
    simp only [step, swap, Res.ok.injEq, Prod.mk.injEq] at e
    obtain ⟨rfl, rfl⟩ := e
    exact ⟨fun _ => ⟨by simp, rfl, S2, S1⟩, fun h => absurd (Or.inl (Nat.zero_le _)) h⟩
  | assignVec =>
    simp only [step, assignVec] at e
    rw [readRange_rep (a := []) (b := m) (c := []) (by simpa using R2) (i := 0) (j := w.size) rfl (by simp [R2.size_eq]), Res.ok_bind] at e
    refine grew_step (fun _ => by simp) S1 S2 ?_ rfl e
    have := assignRange_grew (cfg := cfg) (grant := g) R1 (m.map some) (by simpa using F2)
    simpa [need] using this
  | copy =>
    simp only [step] at e
    obtain ⟨w', h, e⟩ := Res.bind_eq_ok.mp e
    simp only [Res.ok.injEq, Prod.mk.injEq] at e
    obtain ⟨rfl, rfl⟩ := e
    unfold copy at h
    obtain ⟨ys, _, h⟩ := Res.bind_eq_ok.mp h
    obtain ⟨d, hd, h⟩ := Res.bind_eq_ok.mp h
    simp only [Res.ok.injEq] at h
    subst h
    have hl := store_len hd
    rw [show (cells (calloc cfg true v.size)).length = v.size by simp [calloc, cells]] at hl
    refine ⟨fun _ => ⟨by simp, by simp [caps, hs], S1, ?_⟩, fun h => absurd (Or.inl (Nat.zero_le _)) h⟩
    rw [snug_def, room_cells]
    simp only [hl]
    omega

theorem step_det {g : Bool} {s : Vec α × Vec α} {xs : List α × List α} (R : Rep2 cfg s xs) (op : VOp α) (hp : VPre cfg.sz xs op)
    (S1 : Snug s.1) (S2 : Snug s.2) :
    ∃ s', step cfg g s op = .ok (s', (cstep cfg.dflt (xs, (s.1.alloc, s.2.alloc)) op g).2) ∧
      Rep2 cfg s' (cstep cfg.dflt (xs, (s.1.alloc, s.2.alloc)) op g).1.1 ∧
      (s'.1.alloc, s'.2.alloc) = (cstep cfg.dflt (xs, (s.1.alloc, s.2.alloc)) op g).1.2 ∧ Snug s'.1 ∧ Snug s'.2 := by
  rcases step_sim (grant := g) R op hp with ⟨s1, e1, R'⟩ | ⟨hg, ha, e1⟩
  · obtain ⟨h1, h2⟩ := step_cap R op hp S1 S2 e1
    by_cases hn : need xs op ≤ s.1.alloc ∨ g = true
    · obtain ⟨_, hc, k1, k2⟩ := h1 hn
      simp only [cstep, if_pos hn]
      exact ⟨s1, e1, R', hc, k1, k2⟩
    · obtain ⟨hr, rfl⟩ := h2 hn
      exfalso
      -- the operations that ask for room report nothing when carried out
      have hpos : 0 < need xs op := by
        rcases Nat.eq_zero_or_pos (need xs op) with h0 | h0
        · exact absurd (Or.inl (by omega)) hn
        · exact h0
      cases op <;> simp only [need, vstep] at hr hpos <;> first | omega | simp at hr | skip
      all_goals
        split at hr
        · simp at hr
        · simp at hr
  · obtain ⟨h1, h2⟩ := step_cap R op hp S1 S2 e1
    by_cases hn : need xs op ≤ s.1.alloc ∨ g = true
    · exact absurd rfl (h1 hn).1
    · simp only [cstep, if_neg hn]
      exact ⟨s, e1, R, rfl, S1, S2⟩

theorem run_det (ops : List (VOp α × Bool)) : ∀ (s : Vec α × Vec α) (xs : List α × List α), Rep2 cfg s xs → Snug s.1 → Snug s.2 →
    CPres cfg.sz cfg.dflt (xs, (s.1.alloc, s.2.alloc)) ops →
    ∃ s', run cfg s ops = .ok (s', (cruns cfg.dflt (xs, (s.1.alloc, s.2.alloc)) ops).2) ∧
      Rep2 cfg s' (cruns cfg.dflt (xs, (s.1.alloc, s.2.alloc)) ops).1.1 ∧
      (s'.1.alloc, s'.2.alloc) = (cruns cfg.dflt (xs, (s.1.alloc, s.2.alloc)) ops).1.2 ∧ Snug s'.1 ∧ Snug s'.2 := by
  induction ops with
  | nil => intro s xs R S1 S2 _; exact ⟨s, rfl, R, rfl, S1, S2⟩
  | cons og ops ih =>
    intro s xs R S1 S2 hp
    obtain ⟨op, g⟩ := og
    obtain ⟨hp1, hp2⟩ := hp
    obtain ⟨s1, e1, R1, c1, k1, k2⟩ := step_det (g := g) R op hp1 S1 S2
    have hst : (cstep cfg.dflt (xs, (s.1.alloc, s.2.alloc)) op g).1 =
        ((cstep cfg.dflt (xs, (s.1.alloc, s.2.alloc)) op g).1.1, (s1.1.alloc, s1.2.alloc)) := by rw [c1]
    rw [hst] at hp2
    obtain ⟨s2, e2, R2, c2, k3, k4⟩ := ih s1 _ R1 k1 k2 hp2
    rw [← hst] at e2 R2 c2
    refine ⟨s2, ?_, R2, c2, k3, k4⟩
    simp only [run, e1, Res.ok_bind, e2]
    rfl

end Eni.Vec
