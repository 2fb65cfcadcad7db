import Verif.Props.Vector
/-!
# C20: exactly which requests `reserve` serves
-/
namespace Eni.Props
open Spec

variable {α : Type}

/-- the loop of `reserve` doubles until the request is reached -/
theorem growLoop_pow {n : Nat} (hn : n ≤ 9223372036854775808) : ∀ (k t : Nat), 0 < t → n ≤ t * 2 ^ k → t < 2 * n → ∀ fuel, k + 1 ≤ fuel →
    ∃ j, Vec.growLoop n fuel t = .ok (t * 2 ^ j) ∧ n ≤ t * 2 ^ j ∧ t * 2 ^ j < 2 * n := by
  intro k
  induction k with
  | zero =>
    intro t ht hk ht2 fuel hf
    obtain ⟨f, rfl⟩ : ∃ f, fuel = f + 1 := ⟨fuel - 1, by omega⟩
    refine ⟨0, ?_, by omega, by omega⟩
    unfold Vec.growLoop
    rw [if_neg (by omega)]
    simp
  | succ k ih =>
    intro t ht hk ht2 fuel hf
    obtain ⟨f, rfl⟩ : ∃ f, fuel = f + 1 := ⟨fuel - 1, by omega⟩
    unfold Vec.growLoop
    by_cases hlt : t < n
    · rw [if_pos ⟨hlt, by unfold Vec.maxSize; omega⟩, if_pos ht, w64_of_lt (by omega)]
      obtain ⟨j, h1, h2, h3⟩ := ih (t * 2) (by omega) (by rw [Nat.mul_assoc, Nat.mul_comm 2, ← Nat.pow_succ]; exact hk) (by omega) f (by omega)
      have he : t * 2 * 2 ^ j = t * 2 ^ (j + 1) := by rw [Nat.mul_assoc, Nat.mul_comm 2, ← Nat.pow_succ]
      rw [he] at h1 h2 h3
      exact ⟨j + 1, h1, h2, h3⟩
    · rw [if_neg (by omega)]
      exact ⟨0, by simp, by omega, by omega⟩

theorem growLoop_first {n c : Nat} (hn : n ≤ 9223372036854775808) (hc : c < n) :
    ∃ j, Vec.growLoop n Vec.growFuel c = .ok ((if c = 0 then 1 else c) * 2 ^ j) ∧ n ≤ (if c = 0 then 1 else c) * 2 ^ j ∧
      (if c = 0 then 1 else c) * 2 ^ j < 2 * n := by
  by_cases h0 : c = 0
  · subst h0
    have : Vec.growLoop n Vec.growFuel 0 = Vec.growLoop n 191 1 := by
      show Vec.growLoop n (191 + 1) 0 = _
      rw [Vec.growLoop, if_pos ⟨hc, by decide⟩]; rfl
    rw [this]
    exact growLoop_pow hn 63 1 (by omega) (by omega) (by omega) 191 (by omega)
  · rw [if_neg h0]
    exact growLoop_pow hn 63 c (by omega) (by
      have : n ≤ 1 * 2 ^ 63 := by omega
      exact Nat.le_trans this (Nat.mul_le_mul_right _ (by omega))) (by omega) Vec.growFuel (by unfold Vec.growFuel; omega)

/-- what `realloc` gives when the request is granted -/
theorem realloc_granted (cfg : Vec.Cfg α) {d : VData α} (hd : d ≠ .dangling) (bytes : Nat) :
    (∃ d', Vec.realloc cfg true d bytes = .ok (some d', d) ∧ d' ≠ .dangling ∧ (Vec.cells d').length = bytes / cfg.sz ∧
      Vec.cells d' = (Vec.cells d).take (bytes / cfg.sz) ++ List.replicate (bytes / cfg.sz - (Vec.cells d).length) none) ∨
    (bytes = 0 ∧ d ≠ .null ∧ Vec.realloc cfg true d bytes = .ok (none, .dangling)) := by
  cases d with
  | dangling => exact absurd rfl hd
  | null => left; exact ⟨_, rfl, by simp, by simp [Vec.cells], by simp [Vec.cells]⟩
  | buf cs =>
    by_cases h : bytes = 0
    · right; exact ⟨h, by simp, by simp [Vec.realloc, h]⟩
    · left
      refine ⟨.buf (cs.take (bytes / cfg.sz) ++ List.replicate (bytes / cfg.sz - cs.length) none), by simp [Vec.realloc, h], by simp, ?_, rfl⟩
      simp only [Vec.cells, List.length_append, List.length_take, List.length_replicate]
      omega

/-- C20, exactly, for requests of at most 2^63 elements that need a new block (and get it). The code asks for room for `T` elements, the first doubling of the
old capacity (of 1, if that is 0) that is not below `n`. If this is a number of bytes below 2^64, `reserve` keeps the contents and provides the room. If
not, it never provides room for `n` elements: either it reports capacity `n` with a smaller block, or, if the number of bytes is a multiple of 2^64 and there is a
block, it throws and has released the block. -/
theorem C20_exact_partial (cfg : Vec.Cfg α) {v : Vec α} (hr : Vec.Reachable cfg v) {xs : List α} (hc : Contents v xs) {n : Nat}
    (h1 : Vec.capacity v < n) (h2 : n ≤ 9223372036854775808) :
    ∃ T j, T = (if Vec.capacity v = 0 then 1 else Vec.capacity v) * 2 ^ j ∧ n ≤ T ∧ T < 2 * n ∧
      ((cfg.sz * T < 18446744073709551616 → ∃ v', Vec.reserve cfg true v n = .ok (v', .val true) ∧ Vec.capacity v' = n ∧ Contents v' xs ∧
          (Vec.cells v'.data).length = T) ∧
       (18446744073709551616 ≤ cfg.sz * T →
          (∃ v', Vec.reserve cfg true v n = .ok (v', .val true) ∧ Vec.capacity v' = n ∧ (Vec.cells v'.data).length < n) ∨
          (cfg.sz * T % 18446744073709551616 = 0 ∧ v.data ≠ .null ∧
            ∃ v', Vec.reserve cfg true v n = .ok (v', .exc .noMemory) ∧ v'.data = .dangling ∧ v'.size = v.size))) := by
  obtain ⟨xs', R, F⟩ := Vec.reachable_rep hr
  obtain rfl := Vec.contents_unique (Vec.rep_contents R) hc
  have h1' : v.alloc < n := h1
  obtain ⟨j, hg, hT1, hT2⟩ := growLoop_first h2 h1'
  refine ⟨_, j, rfl, hT1, hT2, ?_⟩
  generalize hT : (if Vec.capacity v = 0 then 1 else Vec.capacity v) * 2 ^ j = T at *
  have hT' : (if v.alloc = 0 then 1 else v.alloc) * 2 ^ j = T := hT
  rw [hT'] at hg hT1 hT2
  have hpos := cfg.sz_pos
  have hunf : Vec.reserve cfg true v n = (do
      match ← Vec.realloc cfg true v.data (w64 (cfg.sz * T)) with
      | (none, d) => Vec.throw { v with data := d } .noMemory
      | (some d, _) => Vec.ret { v with data := d, alloc := n } true) := by
    unfold Vec.reserve
    rw [if_neg (by omega), if_neg (by unfold Vec.maxSize; omega), hg]
    simp only [Res.ok_bind]
    rw [if_neg (by unfold Vec.maxSize; omega)]
    rfl
  rw [hunf]
  constructor
  · intro hb
    rw [w64_of_lt hb]
    have hdiv : cfg.sz * T / cfg.sz = T := Nat.mul_div_cancel_left _ hpos
    rcases realloc_granted cfg R.nd (cfg.sz * T) with ⟨d', e1, e2, e3, e4⟩ | ⟨e1, _, _⟩
    · rw [e1]
      refine ⟨{ v with data := d', alloc := n }, rfl, rfl, Vec.rep_contents ⟨R.size_eq, e2, ?_, ?_, ?_⟩, by rw [← hdiv]; exact e3⟩
      · have := R.le_alloc; show xs'.length ≤ n; omega
      · show n ≤ (Vec.cells d').length; rw [e3, hdiv]; exact hT1
      · obtain ⟨rest, hrest⟩ := R.pre
        have hle := R.le_alloc
        refine ⟨rest.take (T - xs'.length) ++ List.replicate (T - (Vec.cells v.data).length) none, ?_⟩
        show Vec.cells d' = _
        rw [e4, hdiv, hrest, List.take_append, List.length_map, List.take_of_length_le (by simp; omega), List.append_assoc]
    · exfalso
      have : cfg.sz * T ≠ 0 := Nat.mul_ne_zero (by omega) (by omega)
      exact this e1
  · intro hb
    have hsmall : w64 (cfg.sz * T) / cfg.sz < n := by
      rw [Nat.div_lt_iff_lt_mul hpos]
      have hlt : w64 (cfg.sz * T) < 18446744073709551616 := Nat.mod_lt _ (by decide)
      have hq : w64 (cfg.sz * T) + 18446744073709551616 ≤ cfg.sz * T := by
        have := Nat.mod_add_div (cfg.sz * T) 18446744073709551616
        have h5 : 1 ≤ cfg.sz * T / 18446744073709551616 := (Nat.one_le_div_iff (by decide)).mpr hb
        have h6 : w64 (cfg.sz * T) = cfg.sz * T % 18446744073709551616 := rfl
        omega
      have h7 : cfg.sz * T ≤ 2 * (n * cfg.sz) := by
        have := Nat.mul_le_mul_left cfg.sz (by omega : T ≤ 2 * n)
        calc cfg.sz * T ≤ cfg.sz * (2 * n) := this
          _ = 2 * (n * cfg.sz) := by rw [Nat.mul_comm cfg.sz, Nat.mul_assoc]
      omega
    rcases realloc_granted cfg R.nd (w64 (cfg.sz * T)) with ⟨d', e1, e2, e3, e4⟩ | ⟨e1, e2, e3⟩
    · left
      rw [e1]
      exact ⟨{ v with data := d', alloc := n }, rfl, rfl, by show (Vec.cells d').length < n; rw [e3]; exact hsmall⟩
    · right
      rw [e3]
      exact ⟨e1, e2, { v with data := .dangling }, rfl, rfl, rfl⟩

/-- C20, requests above 2^63: for elements of two bytes or more `reserve` never provides the capacity it reports. -/
theorem C20_huge_false (cfg : Vec.Cfg α) (hsz : 2 ≤ cfg.sz) {v : Vec α} (hr : Vec.Reachable cfg v) {n : Nat} (h1 : Vec.capacity v < n)
    (h2 : 9223372036854775808 < n) (h3 : n ≤ Vec.maxSize) {v' : Vec α} {m : Bool} (h : Vec.reserve cfg true v n = .ok (v', .val m)) :
    Vec.capacity v' = n ∧ (Vec.cells v'.data).length < n := by
  obtain ⟨xs', R, F⟩ := Vec.reachable_rep hr
  have h1' : v.alloc < n := h1
  unfold Vec.reserve at h
  rw [if_neg (by omega), if_neg (by omega), Res.bind_eq_ok] at h
  obtain ⟨t, _, h⟩ := h
  simp only at h
  generalize (if t > Vec.maxSize then Vec.maxSize else t) = T at h
  rcases realloc_granted cfg R.nd (w64 (cfg.sz * T)) with ⟨d', e1, e2, e3, e4⟩ | ⟨e1, e2, e3⟩
  · rw [e1] at h
    simp only [Res.ok_bind, Vec.ret, Res.ok.injEq, Prod.mk.injEq] at h
    obtain ⟨rfl, _⟩ := h
    refine ⟨rfl, ?_⟩
    show (Vec.cells d').length < n
    rw [e3, Nat.div_lt_iff_lt_mul (by omega)]
    have hlt : w64 (cfg.sz * T) < 18446744073709551616 := Nat.mod_lt _ (by decide)
    have := Nat.mul_le_mul_left n hsz
    omega
  · rw [e3] at h
    simp [Vec.throw] at h

example := C20_exact_partial (⟨8, 0, 0, by decide⟩ : Vec.Cfg Nat) (v := Vec.empty) ⟨[], Vec.empty, _, .nil _, rfl⟩ (xs := [])
  (Vec.rep_contents Vec.rep_empty) (n := 2305843009213693953) (by decide) (by decide)

/-- The hypotheses of `C20_huge_false` can hold: `reserve(2^63 + 1)` on a vector of capacity 3 * 2^60. -/
theorem C20_huge_case : ∃ v v' : Vec Nat, Vec.Reachable ⟨2, 0, 0, by decide⟩ v ∧ Vec.capacity v = 3458764513820540928 ∧
    Vec.reserve ⟨2, 0, 0, by decide⟩ true v 9223372036854775809 = .ok (v', .val true) := by
  rcases Vec.reserve_spec (cfg := ⟨2, 0, 0, by decide⟩) (grant := true) (Vec.rep_empty (α := Nat)) (n := 3458764513820540928)
    (by show Fits 2 _; decide) with ⟨h, _⟩ | ⟨_, ⟨_, v, h, R, ha⟩ | ⟨h, _⟩⟩
  · exact absurd h (by decide)
  · have hg : Vec.growLoop 9223372036854775809 Vec.growFuel 3458764513820540928 = .ok 13835058055282163712 := by decide +kernel
    have hd : v.data ≠ .null := by
      intro h0
      have := R.cap
      rw [h0, ha] at this
      simp [Vec.cells] at this
    refine ⟨v, ?_⟩
    rcases realloc_granted ⟨2, 0, 0, by decide⟩ R.nd 9223372036854775808 with ⟨d', e1, _⟩ | ⟨h, _⟩
    · refine ⟨{ v with data := d', alloc := 9223372036854775809 }, ⟨[(.reserve 3458764513820540928, true)], Vec.empty, [.done],
        .cons (by show Fits _ _; decide) (.nil _) (by simp), ?_⟩, ha, ?_⟩
      · simp only [Vec.run, Vec.step, h, Vec.report, Res.ok_bind]
      · unfold Vec.reserve
        rw [if_neg (by rw [ha]; decide), if_neg (by decide), ha, hg]
        simp only [Res.ok_bind]
        rw [show w64 (2 * (if 13835058055282163712 > Vec.maxSize then Vec.maxSize else 13835058055282163712)) = 9223372036854775808 from by decide +kernel, e1]
        rfl
    · exact absurd h (by decide)
  · cases h

example : ∃ v v' : Vec Nat, Vec.capacity v' = 9223372036854775809 ∧ (Vec.cells v'.data).length < 9223372036854775809 ∧ Vec.Reachable ⟨2, 0, 0, by decide⟩ v := by
  obtain ⟨v, v', h1, h2, h3⟩ := C20_huge_case
  obtain ⟨h4, h5⟩ := C20_huge_false ⟨2, 0, 0, by decide⟩ (by decide) h1 (by rw [h2]; decide) (by decide) (by decide) h3
  exact ⟨v, v', h4, h5, h1⟩

end Eni.Props
