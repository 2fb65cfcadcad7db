import Verif.Spec.RsaWork
import Verif.Proofs.Crypto
/-!
# Programs of multiplications: what they compute and how long they are

Helper lemmas, no property statements.
-/
namespace Eni.Crypto
open Spec.Rsa

variable {α β : Type}

theorem exec_map (f : α → β) {mul : α → α → α} {mul' : β → β → β} (hf : ∀ a b, f (mul a b) = mul' (f a) (f b)) :
    ∀ (p : Prog) (rs : List α), exec mul' (rs.map f) p = (exec mul rs p).map (List.map f)
  | [], rs => rfl
  | (i, j) :: p, rs => by
    simp only [exec, List.getElem?_map]
    cases h1 : rs[i]? with
    | none => rfl
    | some a =>
      cases h2 : rs[j]? with
      | none => rfl
      | some b =>
        simp only [Option.map_some]
        rw [← exec_map f hf p (rs ++ [mul a b]), List.map_append, List.map_cons, hf, List.map_nil]

theorem exec_append (mul : α → α → α) : ∀ (p q : Prog) (rs : List α), exec mul rs (p ++ q) = (exec mul rs p).bind fun s => exec mul s q
  | [], q, rs => rfl
  | (i, j) :: p, q, rs => by
    simp only [exec, List.cons_append]
    cases h1 : rs[i]? with
    | none => rfl
    | some a =>
      cases h2 : rs[j]? with
      | none => rfl
      | some b => exact exec_append mul p q _

/-- earlier results stay -/
theorem exec_prefix (mul : α → α → α) : ∀ (p : Prog) (rs es : List α), exec mul rs p = some es → ∃ t, es = rs ++ t ∧ t.length = p.length
  | [], rs, es, h => ⟨[], by simpa [exec] using h.symm, rfl⟩
  | (i, j) :: p, rs, es, h => by
    simp only [exec] at h
    split at h
    · obtain ⟨t, h1, h2⟩ := exec_prefix mul p _ _ h
      exact ⟨_ :: t, by rw [h1, List.append_assoc]; rfl, by simp [h2]⟩
    · cases h

theorem exec_bound : ∀ (p : Prog) (rs es : List Nat) (k : Nat), (∀ r ∈ rs, r ≤ 2 ^ k) → exec (· + ·) rs p = some es → ∀ r ∈ es, r ≤ 2 ^ (k + p.length)
  | [], rs, es, k, h, he => by
    simp only [exec, Option.some.injEq] at he
    subst he
    exact h
  | (i, j) :: p, rs, es, k, h, he => by
    simp only [exec] at he
    split at he
    · rename_i a b ha hb
      have h1 := h a (List.mem_of_getElem? ha)
      have h2 := h b (List.mem_of_getElem? hb)
      have := exec_bound p _ es (k + 1) (by
        intro r hr
        rw [List.mem_append] at hr
        rw [Nat.pow_succ]
        rcases hr with hr | hr
        · have := h r hr; omega
        · rw [List.mem_singleton] at hr; omega) he
      intro r hr
      have := this r hr
      rwa [show k + 1 + p.length = k + ((i, j) :: p).length by simp; omega] at this
    · cases he

theorem power_le {p : Prog} {e : Nat} (h : Power p e) : e ≤ 2 ^ p.length := by
  obtain ⟨es, h1, h2⟩ := h
  have := exec_bound p [1] es 0 (by simp) h1 e (List.mem_of_getLast? h2)
  simpa using this

theorem power_double {p : Prog} {e : Nat} (h : Power p e) : Power (p ++ [(p.length, p.length)]) (e + e) := by
  obtain ⟨es, h1, h2⟩ := h
  obtain ⟨t, ht, hl⟩ := exec_prefix _ p _ _ h1
  have hlen : es.length = p.length + 1 := by rw [ht]; simp [hl]
  have hlast : es[p.length]? = some e := by rw [← h2, List.getLast?_eq_getElem?, hlen]; rfl
  refine ⟨es ++ [e + e], ?_, by simp⟩
  rw [exec_append, h1, Option.bind_some]
  simp [exec, hlast]

theorem power_succ {p : Prog} {e : Nat} (h : Power p e) : Power (p ++ [(p.length, 0)]) (e + 1) := by
  obtain ⟨es, h1, h2⟩ := h
  obtain ⟨t, ht, hl⟩ := exec_prefix _ p _ _ h1
  have hlen : es.length = p.length + 1 := by rw [ht]; simp [hl]
  have hlast : es[p.length]? = some e := by rw [← h2, List.getLast?_eq_getElem?, hlen]; rfl
  have hfirst : es[0]? = some 1 := by rw [ht]; rfl
  refine ⟨es ++ [e + 1], ?_, by simp⟩
  rw [exec_append, h1, Option.bind_some]
  simp [exec, hlast, hfirst]

/-- repeated squaring -/
theorem power_exists (e : Nat) : 0 < e → ∃ p, Power p e ∧ 2 ^ p.length ≤ e * e := by
  induction e using Nat.strongRecOn with
  | _ e ih =>
    intro he
    by_cases h1 : e = 1
    · subst h1; exact ⟨[], ⟨[1], rfl, rfl⟩, by simp⟩
    · obtain ⟨p, hp, hl⟩ := ih (e / 2) (by omega) (by omega)
      have hd := power_double hp
      by_cases hm : e % 2 = 0
      · refine ⟨_, by rw [show e = e / 2 + e / 2 by omega]; exact hd, ?_⟩
        rw [List.length_append, List.length_singleton, Nat.pow_succ]
        have : e * e = (e / 2) * (e / 2) * 4 := by
          conv => lhs; rw [show e = 2 * (e / 2) by omega]
          ring
        omega
      · have hs := power_succ hd
        refine ⟨_, by rw [show e = e / 2 + e / 2 + 1 by omega]; exact hs, ?_⟩
        rw [List.length_append, List.length_append, List.length_singleton, List.length_singleton, Nat.pow_succ, Nat.pow_succ]
        have : e * e = (e / 2) * (e / 2) * 4 + 4 * (e / 2) + 1 := by
          conv => lhs; rw [show e = 2 * (e / 2) + 1 by omega]
          ring
        omega

theorem exec_powers (n x : Nat) (p : Prog) (e : Nat) (h : Power p e) :
    ∃ vs, exec (fun a b => a * b % n) [x % n] p = some vs ∧ vs.getLast? = some (x ^ e % n) := by
  obtain ⟨es, h1, h2⟩ := h
  have := exec_map (fun a => x ^ a % n) (mul := (· + ·)) (mul' := fun a b => a * b % n)
    (fun a b => by rw [pow_add, Nat.mul_mod]) p [1]
  rw [h1] at this
  refine ⟨es.map fun a => x ^ a % n, by simpa using this, ?_⟩
  rw [List.getLast?_map, h2]; rfl

/-- adding a common multiple of the orders changes no power -/
theorem pow_add_order {p L : Nat} (hp : p.Prime) (hL : (p - 1) ∣ L) (x e : Nat) (he : 0 < e) : x ^ (e + L) ≡ x ^ e [MOD p] := by
  obtain ⟨j, rfl⟩ := hL
  by_cases hx : p ∣ x
  · have h1 : p ∣ x ^ (e + (p - 1) * j) := dvd_pow hx (by omega)
    have h2 : p ∣ x ^ e := dvd_pow hx (by omega)
    exact ((Nat.modEq_zero_iff_dvd).2 h1).trans ((Nat.modEq_zero_iff_dvd).2 h2).symm
  · have hc : Nat.Coprime x p := (Nat.Prime.coprime_iff_not_dvd hp).2 hx |>.symm
    have := Nat.ModEq.pow_totient hc
    rw [Nat.totient_prime hp] at this
    rw [pow_add, pow_mul]
    simpa using (this.pow j).mul_left (x ^ e)

theorem pow_add_orders {p q L : Nat} (hp : p.Prime) (hq : q.Prime) (hne : p ≠ q) (hp1 : (p - 1) ∣ L) (hq1 : (q - 1) ∣ L) (x e : Nat) (he : 0 < e) :
    x ^ (e + L) % (p * q) = x ^ e % (p * q) :=
  (Nat.modEq_and_modEq_iff_modEq_mul ((Nat.coprime_primes hp hq).2 hne)).1
    ⟨pow_add_order hp hp1 x e he, pow_add_order hq hq1 x e he⟩

end Eni.Crypto
