import Verif.Model.StringHasher
/-!
# The loops of the string hash functions (include/eni/adt/StringHasher.h 50-258)

Model/StringHasher describes the hash functions by recursion over the text. Here the loops are the ones of the code: an index of 32 bits is compared with the
64-bit `pKey.size()`.
-/
namespace Eni.Hasher

/-- The functions with a 32-bit index. -/
inductive Fn where
  | rs | js | pjw | elf | bkdr | sdbm | djb | dek | bp | fnv | ap
  deriving DecidableEq, Repr

/-- The local variables `hash_val` and, for RS, `a`. -/
structure Loc where
  h : UInt32
  a : UInt32

/-- `for (uint32_t i = 0; i < pKey.size(); ++i) …` from index `i` on with local variables `st`: the loop ends, with local variables `r`. No execution is related if the
loop does not end. Reading `pKey[i]` is always in range, by the loop condition. -/
inductive Loop (step : UInt32 → Loc → UInt8 → Loc) (s : List UInt8) : UInt32 → Loc → Loc → Prop
  | done {i st} : ¬ i.toNat < s.length → Loop step s i st st
  | next {i st c r} : i.toNat < s.length → s[i.toNat]? = some c → Loop step s (i + 1) (step i st c) r → Loop step s i st r

/-- The local variables before the loop (StringHasher.h 55-57, 74, 93, 117, 138, 157, 174, 192, 210, 228, 247). -/
def start (s : List UInt8) : Fn → Loc
  | .rs => ⟨0, 63689⟩
  | .js => ⟨1315423911, 0⟩
  | .djb => ⟨5381, 0⟩
  | .dek => ⟨UInt32.ofNat s.length, 0⟩
  | .ap => ⟨0xAAAAAAAA, 0⟩
  | _ => ⟨0, 0⟩

/-- The loop bodies (StringHasher.h 59-62, 76-78, 99-105, 120-125, 141-142, 159-160, 176-177, 194-195, 211-212, 229-232, 249-253). -/
def body : Fn → UInt32 → Loc → UInt8 → Loc
  | .rs, _, st, c => ⟨st.h * st.a + sx c, st.a * 378551⟩
  | .js, _, st, c => ⟨st.h ^^^ ((st.h <<< 5) + sx c + (st.h >>> 2)), st.a⟩
  | .pjw, _, st, c => ⟨pjwStep st.h c, st.a⟩
  | .elf, _, st, c => ⟨elfStep st.h c, st.a⟩
  | .bkdr, _, st, c => ⟨st.h * 131 + sx c, st.a⟩
  | .sdbm, _, st, c => ⟨sx c + (st.h <<< 6) + (st.h <<< 16) - st.h, st.a⟩
  | .djb, _, st, c => ⟨((st.h <<< 5) + st.h) + sx c, st.a⟩
  | .dek, _, st, c => ⟨((st.h <<< 5) ^^^ (st.h >>> 27)) ^^^ sx c, st.a⟩
  | .bp, _, st, c => ⟨(st.h <<< 7) ^^^ sx c, st.a⟩
  | .fnv, _, st, c => ⟨(st.h * 0x811C9DC5) ^^^ sx c, st.a⟩
  | .ap, i, st, c =>
    ⟨st.h ^^^ (if i &&& 1 = 0 then (st.h <<< 7) ^^^ (sx c * (st.h >>> 3)) else ~~~((st.h <<< 11) + (sx c ^^^ (st.h >>> 5)))), st.a⟩

/-- `StringHasher<fn>()(pKey)` returns `v` (StringHasher.h 50-258). -/
def Returns (fn : Fn) (s : List UInt8) (v : UInt32) : Prop := ∃ r, Loop (body fn) s 0 (start s fn) r ∧ r.h = v

/-- The function of Model/StringHasher with this name. -/
def hashOf : Fn → List UInt8 → UInt32
  | .rs => rs
  | .js => js
  | .pjw => pjw
  | .elf => elf
  | .bkdr => bkdr
  | .sdbm => sdbm
  | .djb => djb
  | .dek => dek
  | .bp => bp
  | .fnv => fnv
  | .ap => ap

end Eni.Hasher
