/-!
# Work of an exponentiation

How openssl computes a power is not part of /repo. Here a method is any program of multiplications, whatever their order: every step
multiplies two numbers computed before. The exponents that it reaches depend on the program alone.
-/
namespace Eni.Spec.Rsa

/-- A program: each step multiplies the results number `i` and `j`; result 0 is the argument. -/
abbrev Prog := List (Nat × Nat)

/-- The results of a program with `mul` as multiplication. -/
def exec {α : Type} (mul : α → α → α) (rs : List α) : Prog → Option (List α)
  | [] => some rs
  | (i, j) :: p =>
    match rs[i]?, rs[j]? with
    | some a, some b => exec mul (rs ++ [mul a b]) p
    | _, _ => none

/-- The last result of the program is the power with exponent `e`. -/
def Power (p : Prog) (e : Nat) : Prop := ∃ es, exec (· + ·) [1] p = some es ∧ es.getLast? = some e

end Eni.Spec.Rsa
