import Verif.Model.Basic
/-!
# String hash functions (include/eni/adt/StringHasher.h)

Strings are byte lists. `pKey[i]` is a signed `char`; in an expression with `uint32_t` it is converted to `unsigned` with sign
extension. All arithmetic is on 32-bit words and wraps. The loops run over `i < pKey.size()`; with a 32-bit `i` they are
infinite for strings of 2^32 bytes or more. Simplified: the functions here are recursive over the text; Model/HashLoop has the loops (C101).
-/
namespace Eni.Hasher

/-- Conversion of a signed `char` to `uint32_t` (sign extension). -/
def sx (c : UInt8) : UInt32 := if c < 128 then UInt32.ofNat c.toNat else UInt32.ofNat c.toNat + 0xFFFFFF00

/-- `StringHasher<RS>` (StringHasher.h 50-65): state is `(hash_val, a)`. -/
def rs (s : List UInt8) : UInt32 :=
  (s.foldl (fun (st : UInt32 × UInt32) c => (st.1 * st.2 + sx c, st.2 * 378551)) (0, 63689)).1

/-- `StringHasher<JS>` (StringHasher.h 70-82). -/
def js (s : List UInt8) : UInt32 :=
  s.foldl (fun h c => h ^^^ ((h <<< 5) + sx c + (h >>> 2))) 1315423911

/-- One step of PJW (StringHasher.h 100-104): `OneEighth = 4`, `ThreeQuarters = 24`, `HighBits = 0xF0000000`. -/
def pjwStep (h : UInt32) (c : UInt8) : UInt32 :=
  let h := (h <<< 4) + sx c
  let test := h &&& 0xF0000000
  if test ≠ 0 then (h ^^^ (test >>> 24)) &&& ~~~(0xF0000000 : UInt32) else h

/-- `StringHasher<PJW>` (StringHasher.h 87-108). -/
def pjw (s : List UInt8) : UInt32 := s.foldl pjwStep 0

/-- One step of ELF (StringHasher.h 122-125). -/
def elfStep (h : UInt32) (c : UInt8) : UInt32 :=
  let h := (h <<< 4) + sx c
  let x := h &&& 0xF0000000
  let h := if x ≠ 0 then h ^^^ (x >>> 24) else h
  h &&& ~~~x

/-- `StringHasher<ELF>` (StringHasher.h 113-129). -/
def elf (s : List UInt8) : UInt32 := s.foldl elfStep 0

/-- `StringHasher<BKDR>` (StringHasher.h 134-146). -/
def bkdr (s : List UInt8) : UInt32 := s.foldl (fun h c => h * 131 + sx c) 0

/-- `StringHasher<SDBM>` (StringHasher.h 153-164). -/
def sdbm (s : List UInt8) : UInt32 := s.foldl (fun h c => sx c + (h <<< 6) + (h <<< 16) - h) 0

/-- `StringHasher<DJB>` (StringHasher.h 170-182). -/
def djb (s : List UInt8) : UInt32 := s.foldl (fun h c => ((h <<< 5) + h) + sx c) 5381

/-- `StringHasher<DEK>` (StringHasher.h 188-200). -/
def dek (s : List UInt8) : UInt32 :=
  s.foldl (fun h c => ((h <<< 5) ^^^ (h >>> 27)) ^^^ sx c) (UInt32.ofNat s.length)

/-- `StringHasher<BP>` (StringHasher.h 206-217). -/
def bp (s : List UInt8) : UInt32 := s.foldl (fun h c => (h <<< 7) ^^^ sx c) 0

/-- `StringHasher<FNV>` (StringHasher.h 223-237). -/
def fnv (s : List UInt8) : UInt32 := s.foldl (fun h c => (h * 0x811C9DC5) ^^^ sx c) 0

/-- `StringHasher<AP>` (StringHasher.h 243-258): state is `(hash_val, i is even)`. In the even case `*` binds tighter than `^`. -/
def ap (s : List UInt8) : UInt32 :=
  (s.foldl (fun (st : UInt32 × Bool) c =>
    (if st.2 then st.1 ^^^ ((st.1 <<< 7) ^^^ (sx c * (st.1 >>> 3)))
     else st.1 ^^^ (~~~((st.1 <<< 11) + (sx c ^^^ (st.1 >>> 5)))), !st.2)) (0xAAAAAAAA, true)).1

/-- One character of `StringHasher<ES>` (StringHasher.h 283-308): `(result, dot)`. The `ctype.h` predicates are those of the C locale.
For bytes from 128 on the argument of `isdigit` is negative, which is undefined behaviour: `none`. -/
def esStep (st : UInt32 × UInt32) (c : UInt8) : Option (UInt32 × UInt32) :=
  let (result, dot) := st
  if c = 46 then some (result, dot + 1)
  else if 128 ≤ c then none
  else if 48 ≤ c ∧ c ≤ 57 then some (result ||| ((1 : UInt32) <<< 27), dot)
  else if c = 95 then some (result ||| ((1 : UInt32) <<< 26), dot)
  else if 65 ≤ c ∧ c ≤ 90 then some (result ||| ((1 : UInt32) <<< UInt32.ofNat (c.toNat - 65)), dot)
  else if 97 ≤ c ∧ c ≤ 122 then some (result ||| ((1 : UInt32) <<< UInt32.ofNat (c.toNat - 97)), dot)
  else some (result, dot)

/-- The loop of `StringHasher<ES>` (StringHasher.h 282-309). -/
def esLoop (st : UInt32 × UInt32) : List UInt8 → Option (UInt32 × UInt32)
  | [] => some st
  | c :: cs =>
    match esStep st c with
    | none => none
    | some st => esLoop st cs

/-- `StringHasher<ES>::operator()` (StringHasher.h 277-312). -/
def es (s : List UInt8) : Res UInt32 :=
  match esLoop (0, 0) s with
  | none => .ub .outOfBounds
  | some (result, dot) => .ok (result ||| (dot <<< 28))

/-- `StringHasher<ES>::may_include` (StringHasher.h 318-333). -/
def mayInclude (pRule pInString : UInt32) : Bool :=
  let inC := pInString <<< 4
  let rC := pRule <<< 4
  let res := (inC ^^^ rC) &&& rC
  if res ≠ 0 then false
  else if pRule >>> 28 > pInString >>> 28 then false
  else true

end Eni.Hasher
