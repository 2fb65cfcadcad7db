import Verif.Proofs.Vector
/-!
# `Vector`: observable contents, reachable vectors, the growth loop
-/
namespace Eni
open Spec

theorem fits_of_succ {sz n : Nat} (h : Fits sz (n + 1)) : Fits sz n := Vec.fits_mono h (by omega)

namespace Vec
variable {α : Type} {cfg : Cfg α} {grant : Bool} {v : Vec α} {xs : List α}

theorem rep_contents (R : Rep v xs) : Contents v xs := by
  refine ⟨R.size_eq, fun i => ?_⟩
  have hs := R.size_eq
  by_cases h : i < xs.length
  · rw [at_, if_neg (by omega), readCell_rep R h, List.getElem?_eq_getElem h]; rfl
  · rw [at_, if_pos (by omega), List.getElem?_eq_none (by omega)]; rfl

theorem contents_unique {ys : List α} (h : Contents v xs) (h' : Contents v ys) : xs = ys := by
  apply List.ext_getElem?
  intro i
  have h1 := h.2 i
  rw [h'.2 i] at h1
  cases hx : xs[i]? <;> cases hy : ys[i]? <;> simp_all

theorem rep2_empty : Rep2 cfg ((empty, empty) : Vec α × Vec α) ([], []) :=
  ⟨rep_empty, rep_empty, by simp [Fits], by simp [Fits]⟩

theorem reachable_rep (h : Reachable cfg v) : ∃ xs, Rep v xs ∧ Fits cfg.sz xs.length := by
  obtain ⟨ops, w, rs, hp, hr⟩ := h
  obtain ⟨s', xs', rs', h2, R, _⟩ := run_sim ops _ _ rep2_empty hp
  rw [hr] at h2
  simp only [Res.ok.injEq, Prod.mk.injEq] at h2
  obtain ⟨rfl, rfl⟩ := h2
  exact ⟨_, R.r1, R.f1⟩

theorem vhist_granted {d : α} {ops : List (VOp α)} : ∀ {s s' : List α × List α} {rs : List (VRet α)},
    VHist d s (ops.map (·, true)) s' rs → s' = (vsteps d s ops).1 ∧ rs = (vsteps d s ops).2 := by
  induction ops with
  | nil => intro s s' rs h; cases h; exact ⟨rfl, rfl⟩
  | cons op ops ih =>
    intro s s' rs h
    rw [List.map_cons] at h
    cases h with
    | step h =>
      obtain ⟨h1, h2⟩ := ih h
      exact ⟨h1, by rw [h2]; rfl⟩

/-! the growth loop -/

theorem growLoop_pow_diverge {n : Nat} (hn : 9223372036854775808 < n) : ∀ fuel t, (t = 0 ∨ ∃ k, k ≤ 63 ∧ t = 2 ^ k) →
    growLoop n fuel t = .diverge := by
  intro fuel
  induction fuel with
  | zero => intro t _; rfl
  | succ f ih =>
    intro t ht
    have hle : t ≤ 9223372036854775808 := by
      rcases ht with rfl | ⟨k, hk, rfl⟩
      · omega
      · exact Nat.pow_le_pow_right (n := 2) (by omega) hk
    rw [growLoop, if_pos ⟨by omega, by unfold maxSize; omega⟩]
    apply ih
    rcases ht with rfl | ⟨k, hk, rfl⟩
    · right; exact ⟨0, by omega, rfl⟩
    · have hpos : 2 ^ k > 0 := Nat.pow_pos (by omega)
      rw [if_pos hpos]
      rcases Nat.lt_or_ge k 63 with h | h
      · right
        refine ⟨k + 1, by omega, ?_⟩
        have : 2 ^ (k + 1) ≤ 2 ^ 63 := Nat.pow_le_pow_right (by omega) (by omega)
        rw [← Nat.pow_succ, w64_of_lt (by omega)]
      · left
        have : k = 63 := by omega
        subst this
        rfl

theorem growLoop_zero_diverge {n : Nat} (hn : 9223372036854775808 < n) (fuel : Nat) : growLoop n fuel 0 = .diverge :=
  growLoop_pow_diverge hn fuel 0 (.inl rfl)

theorem growLoop_mono {n : Nat} : ∀ f g t r, f ≤ g → growLoop n f t = .ok r → growLoop n g t = .ok r := by
  intro f
  induction f with
  | zero => intro g t r _ h; simp [growLoop] at h
  | succ f ih =>
    intro g t r hg h
    obtain ⟨g, rfl⟩ : ∃ g', g = g' + 1 := ⟨g - 1, by omega⟩
    rw [growLoop] at h ⊢
    split at h
    · rename_i hc; rw [if_pos hc]; exact ih g _ r (by omega) h
    · rename_i hc; rw [if_neg hc]; exact h

theorem growLoop_cases (n : Nat) : ∀ f t, growLoop n f t = .diverge ∨ ∃ r, growLoop n f t = .ok r := by
  intro f
  induction f with
  | zero => intro t; left; rfl
  | succ f ih =>
    intro t
    rw [growLoop]
    split
    · exact ih _
    · right; exact ⟨_, rfl⟩

theorem growLoop_zero_ok {n : Nat} (hn : n ≤ 9223372036854775808) {f : Nat} (hf : 66 ≤ f) : growLoop n f 0 ≠ .diverge := by
  intro h
  obtain ⟨f, rfl⟩ : ∃ g, f = g + 1 := ⟨f - 1, by omega⟩
  rw [growLoop] at h
  split at h
  · rename_i hc
    simp only [Nat.lt_irrefl, gt_iff_lt, if_false] at h
    obtain ⟨r, hr, _⟩ := growLoop_ok hn 63 1 (by omega) (by omega) (by omega) f (by omega)
    rw [hr] at h; cases h
  · cases h

/-- a loop that has not ended after 66 more iterations than the number of doublings that lead to zero never ends -/
theorem growLoop_div_aux {n : Nat} : ∀ k t f, 0 < t → t < 18446744073709551616 → 18446744073709551616 ∣ t * 2 ^ k → 66 + k ≤ f →
    growLoop n f t = .diverge → ∀ g, growLoop n g t = .diverge := by
  intro k
  induction k with
  | zero => intro t f h0 h1 h2; exact absurd (Nat.le_of_dvd (by omega) h2) (by omega)
  | succ k ih =>
    intro t f h0 h1 h2 hf h g
    obtain ⟨f, rfl⟩ : ∃ f', f = f' + 1 := ⟨f - 1, by omega⟩
    cases g with
    | zero => rfl
    | succ g =>
      rw [growLoop] at h ⊢
      split at h
      · rename_i hc
        rw [if_pos hc]
        simp only [gt_iff_lt, h0, if_true] at h ⊢
        rcases Nat.eq_zero_or_pos (w64 (t * 2)) with hz | hz
        · rw [hz] at h ⊢
          rcases Nat.lt_or_ge 9223372036854775808 n with hn | hn
          · exact growLoop_zero_diverge hn g
          · exact absurd h (growLoop_zero_ok hn (by omega))
        · refine ih _ f hz (Nat.mod_lt _ (by omega)) ?_ (by omega) h g
          have h3 : 18446744073709551616 ∣ (t * 2) * 2 ^ k := by
            rw [Nat.mul_assoc, Nat.mul_comm 2, ← Nat.pow_succ]; exact h2
          unfold w64
          have h4 := (Nat.dvd_mod_iff (k := 18446744073709551616) (m := (t * 2) * 2 ^ k) (n := 18446744073709551616) (Nat.dvd_refl _)).mpr h3
          have h5 : (t * 2 % 18446744073709551616 * 2 ^ k) % 18446744073709551616 = ((t * 2) * 2 ^ k) % 18446744073709551616 := by
            rw [Nat.mod_mul_mod]
          apply Nat.dvd_of_mod_eq_zero
          rw [h5]
          exact Nat.mod_eq_zero_of_dvd h3
      · cases h

theorem growLoop_diverge_all {n c : Nat} (hc : c < 18446744073709551616) (h : growLoop n growFuel c = .diverge) :
    ∀ fuel, growLoop n fuel c = .diverge := by
  rcases Nat.eq_zero_or_pos c with rfl | h0
  · rcases Nat.lt_or_ge 9223372036854775808 n with hn | hn
    · exact growLoop_zero_diverge hn
    · exact absurd h (growLoop_zero_ok hn (by decide))
  · exact growLoop_div_aux 64 c growFuel h0 hc (Nat.dvd_mul_left _ _) (by decide) h

/-! arguments that refer to own elements -/

theorem insertN_own (R : Rep v xs) {i n j : Nat} (hn : v.size + n ≤ capacity v) (hn2 : Fits cfg.sz (xs.length + n)) (hi : i ≤ xs.length)
    (hj : j < xs.length) :
    ∃ v', insertN cfg grant v i n (.own j) = .ok (v', .val ()) ∧
      Rep v' (xs.take i ++ List.replicate n (if j < i + n then xs[j] else xs[j - n]'(by omega)) ++ xs.drop i) := by
  have hF := fits_le hn2
  have hs := R.size_eq
  rw [capacity] at hn
  rcases resizeA_sim (cfg := cfg) (grant := grant) (v := v) R (n := xs.length + n) hn2 cfg.dflt with h | ⟨_, h1⟩
  case inr => exact absurd (exc_of_resizeA h1) (by omega)
  obtain ⟨v1, m, h1, R1, hm, ha, _⟩ := h
  have hm' : m = false := by
    cases m with
    | false => rfl
    | true => exact absurd (hm.mp rfl) (by omega)
  subst hm'
  have e1 : xs.take (xs.length + n) ++ List.replicate (xs.length + n - xs.length) cfg.dflt
      = xs.take i ++ xs.drop i ++ List.replicate n cfg.dflt := by
    rw [List.take_of_length_le (by omega), List.take_append_drop, Nat.add_sub_cancel_left]
  rw [e1] at R1
  have hs1 : v1.size = xs.length + n := by rw [R1.size_eq]; simp
  obtain ⟨g, d, hg0, hg, h2, h3, R2⟩ := gap (i := i) R1 (by simp; omega)
  have hlen2 : j < (xs.take i ++ g ++ xs.drop i).length := by simp [hg]; omega
  have hval : (xs.take i ++ g ++ xs.drop i)[j] = if j < i + n then xs[j] else xs[j - n]'(by omega) := by
    by_cases hji : j < i + n
    · rw [if_pos hji]
      by_cases hi2 : j < i
      · rw [List.getElem_append_left (by simp [hg]; omega), List.getElem_append_left (by simp; omega), List.getElem_take]
      · rw [List.getElem_append_left (by simp [hg]; omega), List.getElem_append_right (by simp; omega)]
        subst hg0
        rw [List.getElem_take, List.getElem_append_left (by simp; omega), List.getElem_drop]
        congr 1; simp; omega
    · rw [if_neg hji, List.getElem_append_right (by simp [hg]; omega), List.getElem_drop]
      congr 1; simp [hg]; omega
  have hread := readCell_rep R2 hlen2
  rw [hval] at hread
  unfold insertN
  rw [if_neg (by omega), hs, w64_of_lt (by omega), resize, h1, andThen_val, if_neg (by omega)]
  simp only [h2, h3, Res.ok_bind]
  by_cases h0 : n = 0
  · subst h0
    rw [if_pos rfl]
    have : g = [] := List.eq_nil_of_length_eq_zero hg
    subst this
    exact ⟨_, rfl, by simpa using R2⟩
  · rw [if_neg h0]
    obtain ⟨d2, h4, R3⟩ := store_rep (ys := List.replicate n (if j < i + n then xs[j] else xs[j - n]'(by omega))) (i := i) R2
      (by simpa using hg) (by simp; omega)
    rw [List.map_replicate] at h4
    refine ⟨{ v1 with data := d2 }, ?_, R3⟩
    simp only [readArg, Bool.false_eq_true, if_false]
    simp only at hread h4
    rw [hread]
    simp only [Res.ok_bind, h4]; rfl

/-! constructors -/

theorem mkN_rep (n : Nat) : Rep (mkN cfg true n) (List.replicate n cfg.zero) := by
  refine ⟨by simp [mkN], by simp [mkN, calloc], by simp [mkN], by simp [mkN, calloc, cells], ⟨[], by simp [mkN, calloc, cells]⟩⟩

theorem calloc_store (ys : List α) : store (calloc cfg true ys.length) 0 (ys.map some) = .ok (.buf (ys.map some)) := by
  unfold store
  split
  · rename_i h
    have : ys = [] := by simpa using h
    subst this
    simp [calloc]
  · simp [calloc, overwrite]

theorem buf_rep (ys : List α) : Rep ⟨.buf (ys.map some), ys.length, ys.length⟩ ys :=
  ⟨rfl, by simp, by simp, by simp [cells], ⟨[], by simp [cells]⟩⟩

theorem mkFill_rep (n : Nat) (a : α) : ∃ v, mkFill cfg true n a = .ok v ∧ Rep v (List.replicate n a) := by
  have h := calloc_store (cfg := cfg) (List.replicate n a)
  rw [List.length_replicate] at h
  have R := buf_rep (List.replicate n a)
  rw [List.length_replicate] at R
  refine ⟨_, ?_, R⟩
  rw [mkFill, ← List.map_replicate, h]; rfl

theorem ofList_rep (ys : List α) : ∃ v, ofList cfg true ys = .ok v ∧ Rep v ys :=
  ⟨_, by rw [ofList, calloc_store]; rfl, buf_rep ys⟩

/-! no exception when the capacity suffices -/

theorem insertN_noexc {i n : Nat} {a : α} (hi : i ≤ v.size) (h63 : v.size + n < 9223372036854775808) (h : v.size + n ≤ v.alloc) :
    insertN cfg grant v i n (.val a) ≠ .ok (v, .exc .noMemory) := by
  intro hc
  rw [insertN, if_neg (by omega), w64_of_lt (by omega)] at hc
  have := exc_of_resizeA (andThen_exc_iff (by
    intro v' b w hc
    split at hc
    · simp at hc
    · rw [Res.bind_eq_ok] at hc
      obtain ⟨_, _, hc⟩ := hc
      rw [Res.bind_eq_ok] at hc
      obtain ⟨_, _, hc⟩ := hc
      simp only at hc
      split at hc
      · simp [ret] at hc
      · rw [Res.bind_eq_ok] at hc
        obtain ⟨_, _, hc⟩ := hc
        rw [Res.bind_eq_ok] at hc
        obtain ⟨_, _, hc⟩ := hc
        simp [ret] at hc) hc)
  omega

theorem insertRange_noexc {i : Nat} {ys : List (Option α)} (hi : i ≤ v.size) (h63 : v.size + ys.length < 9223372036854775808)
    (h : v.size + ys.length ≤ v.alloc) : insertRange cfg grant v i ys ≠ .ok (v, .exc .noMemory) := by
  intro hc
  rw [insertRange, if_neg (by omega), w64_of_lt (by omega)] at hc
  have := exc_of_resizeA (andThen_exc_iff (by
    intro v' b w hc
    split at hc
    · simp at hc
    · rw [Res.bind_eq_ok] at hc
      obtain ⟨_, _, hc⟩ := hc
      rw [Res.bind_eq_ok] at hc
      obtain ⟨_, _, hc⟩ := hc
      rw [Res.bind_eq_ok] at hc
      obtain ⟨_, _, hc⟩ := hc
      simp [ret] at hc) hc)
  omega

/-! appending to an empty vector -/

theorem pushBack_full (R : Rep v xs) (ha : v.alloc = xs.length) (hn : Fits cfg.sz (xs.length + 1)) (a : α) :
    ∃ v', pushBack cfg true v (.val a) = .ok (v', .val ()) ∧ Rep v' (xs ++ [a]) ∧ v'.alloc = xs.length + 1 := by
  have hs := R.size_eq
  have h63 := fits_le hn
  rcases reserve_spec (cfg := cfg) (grant := true) R hn with ⟨h2, _⟩ | ⟨_, ⟨_, v', h2, R', ha'⟩ | ⟨h2, _⟩⟩
  · omega
  · obtain ⟨d, h, R''⟩ := extend_rep (ys := [a]) R' (by simp; omega)
    have hs' := R'.size_eq
    refine ⟨{ v' with data := d, size := xs.length + 1 }, ?_, R'', ha'⟩
    rw [List.map_singleton] at h
    rw [pushBack, hs, w64_of_lt (by omega), h2, andThen_val]
    simp only [readArg, Res.ok_bind, h]
    simp only [ret, hs', w64_of_lt (by omega : xs.length + 1 < 18446744073709551616)]
  · simp at h2

theorem pushes_from (cfg : Cfg α) : ∀ (ys xs : List α) (v : Vec α), Rep v xs → v.alloc = xs.length → Fits cfg.sz (xs.length + ys.length) →
    ∃ v' rs, run cfg (v, empty) (ys.map fun a => (.pushBack a, true)) = .ok ((v', empty), rs) ∧ Rep v' (xs ++ ys) ∧
      v'.alloc = (xs ++ ys).length := by
  intro ys
  induction ys with
  | nil => intro xs v R ha _; exact ⟨v, [], rfl, by simpa using R, by simpa using ha⟩
  | cons a ys ih =>
    intro xs v R ha hn
    obtain ⟨v1, h1, R1, ha1⟩ := pushBack_full (cfg := cfg) R ha (fits_mono hn (by simp)) a
    obtain ⟨v2, rs, h2, R2, ha2⟩ := ih (xs ++ [a]) v1 R1 (by simp [ha1]) (fits_mono hn (by simp; omega))
    refine ⟨v2, .done :: rs, ?_, by simpa using R2, by simpa using ha2⟩
    rw [List.map_cons, run, step, h1]
    simp only [report, Res.ok_bind, h2]

theorem pushes (cfg : Cfg α) (xs : List α) (hn : Fits cfg.sz xs.length) :
    ∃ v rs, run cfg (empty, empty) (xs.map fun a => (.pushBack a, true)) = .ok ((v, empty), rs) ∧ Rep v xs ∧ v.alloc = xs.length := by
  obtain ⟨v, rs, h, R, ha⟩ := pushes_from cfg xs [] empty rep_empty rfl (by simpa using hn)
  exact ⟨v, rs, h, by simpa using R, by simpa using ha⟩

end Vec
end Eni
