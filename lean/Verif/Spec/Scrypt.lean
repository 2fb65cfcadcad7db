import Verif.Model.StringMap
import Mathlib.Data.Fin.VecNotation
/-!
# HMAC, PBKDF2, Salsa20/8 and scrypt as in their documents

RFC 2104 (HMAC), RFC 8018 (PBKDF2), D. J. Bernstein "Salsa20 specification", RFC 7914 (scrypt), for an arbitrary hash function with
64-byte blocks and 32-byte digests, and for all cost parameters. Nothing here refers to the model of the code.
-/
namespace Eni.Spec.Rfc

/-- bytewise exclusive or -/
def xorB (a b : Bytes) : Bytes := List.zipWith (· ^^^ ·) a b

/-- RFC 2104: H(K XOR opad, H(K XOR ipad, text)), with the key hashed if longer than a block and filled up with zeros. -/
def hmac (H : Bytes → Bytes) (K text : Bytes) : Bytes :=
  let K0 := if K.length > 64 then H K else K
  let K1 := K0 ++ List.replicate (64 - K0.length) 0
  H (xorB K1 (List.replicate 64 0x5c) ++ H (xorB K1 (List.replicate 64 0x36) ++ text))

/-- RFC 8018: INT(i), a four-octet encoding of the integer i, most significant octet first. -/
def int4 (i : Nat) : Bytes := [(i / 2 ^ 24).toUInt8, (i / 2 ^ 16).toUInt8, (i / 2 ^ 8).toUInt8, i.toUInt8]

/-- RFC 8018: U_1, U_2, ... (numbered from 0) of block `i`. -/
def U (prf : Bytes → Bytes → Bytes) (P S : Bytes) (i : Nat) : Nat → Bytes
  | 0 => prf P (S ++ int4 i)
  | j + 1 => prf P (U prf P S i j)

/-- RFC 8018: F(P, S, c, i) = U_1 xor ... xor U_c. -/
def F (prf : Bytes → Bytes → Bytes) (P S : Bytes) (c i : Nat) : Bytes :=
  (List.range (c - 1)).foldl (fun t j => xorB t (U prf P S i (j + 1))) (U prf P S i 0)

/-- RFC 8018: DK, the first `dkLen` octets of T_1 || T_2 || ... for a PRF with 32-octet output. -/
def pbkdf2 (prf : Bytes → Bytes → Bytes) (P S : Bytes) (c dkLen : Nat) : Bytes :=
  ((List.range ((dkLen + 31) / 32)).flatMap fun k => F prf P S c (k + 1)).take dkLen

/-- rotation to the left -/
def rot (x : UInt32) (n : Nat) : UInt32 := ⟨x.toBitVec.rotateLeft n⟩

/-- Salsa20 specification, section 3. -/
def quarterround (y0 y1 y2 y3 : UInt32) : UInt32 × UInt32 × UInt32 × UInt32 :=
  let z1 := y1 ^^^ rot (y0 + y3) 7
  let z2 := y2 ^^^ rot (z1 + y0) 9
  let z3 := y3 ^^^ rot (z2 + z1) 13
  let z0 := y0 ^^^ rot (z3 + z2) 18
  (z0, z1, z2, z3)

/-- Salsa20 specification, section 4. -/
def rowround (y : Fin 16 → UInt32) : Fin 16 → UInt32 :=
  let (z0, z1, z2, z3) := quarterround (y 0) (y 1) (y 2) (y 3)
  let (z5, z6, z7, z4) := quarterround (y 5) (y 6) (y 7) (y 4)
  let (z10, z11, z8, z9) := quarterround (y 10) (y 11) (y 8) (y 9)
  let (z15, z12, z13, z14) := quarterround (y 15) (y 12) (y 13) (y 14)
  ![z0, z1, z2, z3, z4, z5, z6, z7, z8, z9, z10, z11, z12, z13, z14, z15]

/-- Salsa20 specification, section 5. -/
def columnround (x : Fin 16 → UInt32) : Fin 16 → UInt32 :=
  let (y0, y4, y8, y12) := quarterround (x 0) (x 4) (x 8) (x 12)
  let (y5, y9, y13, y1) := quarterround (x 5) (x 9) (x 13) (x 1)
  let (y10, y14, y2, y6) := quarterround (x 10) (x 14) (x 2) (x 6)
  let (y15, y3, y7, y11) := quarterround (x 15) (x 3) (x 7) (x 11)
  ![y0, y1, y2, y3, y4, y5, y6, y7, y8, y9, y10, y11, y12, y13, y14, y15]

/-- Salsa20 specification, section 6. -/
def doubleround (x : Fin 16 → UInt32) : Fin 16 → UInt32 := rowround (columnround x)

/-- The number denoted by octets, least significant first. -/
def leNat (b : Bytes) : Nat := b.foldr (fun (x : UInt8) (n : Nat) => x.toNat + 256 * n) 0

/-- Salsa20 specification, section 7: the word denoted by four octets. -/
def littleendian (b : Bytes) : UInt32 := (leNat b).toUInt32

/-- Inverse of `littleendian`. -/
def littleendianInv (x : UInt32) : Bytes :=
  [x.toNat.toUInt8, (x.toNat / 2 ^ 8).toUInt8, (x.toNat / 2 ^ 16).toUInt8, (x.toNat / 2 ^ 24).toUInt8]

/-- Salsa20/8, RFC 7914 section 3: four double rounds, then the input is added word by word. -/
def salsa8 (b : Bytes) : Bytes :=
  let x : Fin 16 → UInt32 := fun i => littleendian ((b.drop (4 * i)).take 4)
  let z := doubleround (doubleround (doubleround (doubleround x)))
  (List.finRange 16).flatMap fun i => littleendianInv (x i + z i)

/-- Block `i` of 64 octets. -/
def blk (B : Bytes) (i : Nat) : Bytes := (B.drop (64 * i)).take 64

/-- RFC 7914 section 4, steps 1 and 2: Y[0] .. Y[i-1], given X = B[2r-1] to start with. -/
def mixY (B : Bytes) (r : Nat) : Nat → List Bytes
  | 0 => []
  | i + 1 =>
    let Y := mixY B r i
    let X := match Y.getLast? with
      | some y => y
      | none => blk B (2 * r - 1)
    Y ++ [salsa8 (xorB X (blk B i))]

/-- RFC 7914 section 4, scryptBlockMix: B' = (Y[0], Y[2], ..., Y[2r-2], Y[1], Y[3], ..., Y[2r-1]). -/
def blockMix (r : Nat) (B : Bytes) : Bytes :=
  let Y := mixY B r (2 * r)
  let even := (List.range r).flatMap fun i => (Y.drop (2 * i)).take 1
  let odd := (List.range r).flatMap fun i => (Y.drop (2 * i + 1)).take 1
  (even ++ odd).flatten

/-- RFC 7914 section 5: Integerify, the last block as a little-endian integer. -/
def integerify (r : Nat) (B : Bytes) : Nat := leNat (blk B (2 * r - 1))

/-- RFC 7914 section 5, step 2: V[i], the i-th value of X. -/
def vRo (r : Nat) (B : Bytes) (i : Nat) : Bytes := (blockMix r)^[i] B

/-- RFC 7914 section 5, one iteration of step 3. -/
def roStep (r N : Nat) (B X : Bytes) : Bytes := blockMix r (xorB X (vRo r B (integerify r X % N)))

/-- RFC 7914 section 5, scryptROMix. -/
def roMix (r N : Nat) (B : Bytes) : Bytes := (roStep r N B)^[N] (vRo r B N)

/-- RFC 7914 section 6, scrypt. -/
def scrypt (H : Bytes → Bytes) (P S : Bytes) (N r p dkLen : Nat) : Bytes :=
  let B := pbkdf2 (hmac H) P S 1 (p * 128 * r)
  let B' := (List.range p).flatMap fun i => roMix r N ((B.drop (128 * r * i)).take (128 * r))
  pbkdf2 (hmac H) P B' 1 dkLen

end Eni.Spec.Rfc
