import Mathlib.Data.Nat.Prime.Basic
/-!
# RSA keys
-/
namespace Eni.Spec.Rsa

/-- The numbers of an RSA key pair (RFC 8017, section 3): two primes, the exponents are inverse modulo the predecessors of the primes. -/
def KeyPair (n e d : Nat) : Prop :=
  ∃ p q, p.Prime ∧ q.Prime ∧ p ≠ q ∧ n = p * q ∧ e * d % (p - 1) = 1 % (p - 1) ∧ e * d % (q - 1) = 1 % (q - 1) ∧ 0 < e * d

end Eni.Spec.Rsa
