import Verif.Model.EniBase
/-!
# The reverse operation (examples/eni/reverse/eni_reverse.cpp)
-/
namespace Eni.Reverse

/-- `Reverse` (eni_reverse.cpp 9-34); the state is `m_Str`. `gas` is 64-bit arithmetic on a length, which cannot wrap: no string has 2^60
bytes. -/
def op : Base.Hooks Bytes where
  init := []
  parse := fun old vs =>
    match Value.argAt vs 0 >>= Value.toStr with
    | .ok s => (s, .ok true)
    | .throw e => (old, .throw e)
    | .ub u => (old, .ub u)
    | .diverge => (old, .diverge)
    | .exit c => (old, .exit c)
  gas := fun s => .ok (s.length * 10)
  run := fun s ret => (s, ret ++ [.str s.reverse], .ok true)

end Eni.Reverse
