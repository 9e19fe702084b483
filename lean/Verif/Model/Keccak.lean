import Verif.Model.Bytes
/-
Model of fips202.c.  Generated by tools/gen_keccak.py from the C text (the unrolled permutation is transcribed
statement by statement; `X ^= e` becomes `let X := X ^^^ e`).
-/
namespace Xmss

/-- A 64-bit lane, `uint64_t` (fips202.c:65). -/
abbrev Lane := BitVec 64

/-- `ROL`, fips202.c:15. -/
def rol (a : Lane) (offset : Nat) : Lane := (a <<< offset) ^^^ (a >>> (64 - offset))

/-- Loop of `load64`, fips202.c:21-23; `i` is the loop counter. -/
def load64Loop : Nat → Bytes → Lane → Lane
  | _, [], r => r
  | i, b :: bs, r => load64Loop (i + 1) bs (r ||| (BitVec.ofNat 64 b.toNat <<< (8 * i)))

/-- `load64`, fips202.c:17-25, on the first 8 bytes of its argument. -/
def load64 (x : Bytes) : Lane := load64Loop 0 (x.take 8) 0

/-- Loop of `store64`, fips202.c:31-34. -/
def store64Loop : Nat → Lane → Bytes
  | 0, _ => []
  | k + 1, u => UInt8.ofNat u.toNat :: store64Loop k (u >>> 8)

/-- `store64`, fips202.c:27-35. -/
def store64 (u : Lane) : Bytes := store64Loop 8 u

/-- `KeccakF_RoundConstants`, fips202.c:37-63. -/
def keccakRC : List Lane :=
  [0x0000000000000001#64, 0x0000000000008082#64, 0x800000000000808a#64,
   0x8000000080008000#64, 0x000000000000808b#64, 0x0000000080000001#64,
   0x8000000080008081#64, 0x8000000000008009#64, 0x000000000000008a#64,
   0x0000000000000088#64, 0x0000000080008009#64, 0x000000008000000a#64,
   0x000000008000808b#64, 0x800000000000008b#64, 0x8000000000008089#64,
   0x8000000000008003#64, 0x8000000000008002#64, 0x8000000000000080#64,
   0x000000000000800a#64, 0x800000008000000a#64, 0x8000000080008081#64,
   0x8000000000008080#64, 0x0000000080000001#64, 0x8000000080008008#64]

/-- The 25 local lane variables of `KeccakF1600_StatePermute` (`Aba` .. `Asu`, fips202.c:69-73, or `Eba` .. `Esu`, 76-80). -/
@[ext] structure KState where
  ba : Lane
  be : Lane
  bi : Lane
  bo : Lane
  bu : Lane
  ga : Lane
  ge : Lane
  gi : Lane
  go : Lane
  gu : Lane
  ka : Lane
  ke : Lane
  ki : Lane
  ko : Lane
  ku : Lane
  ma : Lane
  me : Lane
  mi : Lane
  mo : Lane
  mu : Lane
  sa : Lane
  se : Lane
  si : Lane
  so : Lane
  su : Lane

/-- First half of the loop body of `KeccakF1600_StatePermute` (A to E), fips202.c:111-203. -/
def keccakHalfAE (rc : Lane) (s : KState) : KState :=
  let Aba := s.ba
  let Abe := s.be
  let Abi := s.bi
  let Abo := s.bo
  let Abu := s.bu
  let Aga := s.ga
  let Age := s.ge
  let Agi := s.gi
  let Ago := s.go
  let Agu := s.gu
  let Aka := s.ka
  let Ake := s.ke
  let Aki := s.ki
  let Ako := s.ko
  let Aku := s.ku
  let Ama := s.ma
  let Ame := s.me
  let Ami := s.mi
  let Amo := s.mo
  let Amu := s.mu
  let Asa := s.sa
  let Ase := s.se
  let Asi := s.si
  let Aso := s.so
  let Asu := s.su
  let BCa := Aba ^^^ Aga ^^^ Aka ^^^ Ama ^^^ Asa
  let BCe := Abe ^^^ Age ^^^ Ake ^^^ Ame ^^^ Ase
  let BCi := Abi ^^^ Agi ^^^ Aki ^^^ Ami ^^^ Asi
  let BCo := Abo ^^^ Ago ^^^ Ako ^^^ Amo ^^^ Aso
  let BCu := Abu ^^^ Agu ^^^ Aku ^^^ Amu ^^^ Asu
  let Da := BCu ^^^ (rol BCe 1)
  let De := BCa ^^^ (rol BCi 1)
  let Di := BCe ^^^ (rol BCo 1)
  let D_o := BCi ^^^ (rol BCu 1)
  let Du := BCo ^^^ (rol BCa 1)
  let Aba := Aba ^^^ Da
  let BCa := Aba
  let Age := Age ^^^ De
  let BCe := rol Age 44
  let Aki := Aki ^^^ Di
  let BCi := rol Aki 43
  let Amo := Amo ^^^ D_o
  let BCo := rol Amo 21
  let Asu := Asu ^^^ Du
  let BCu := rol Asu 14
  let Eba := BCa ^^^ (~~~BCe &&& BCi)
  let Eba := Eba ^^^ rc
  let Ebe := BCe ^^^ (~~~BCi &&& BCo)
  let Ebi := BCi ^^^ (~~~BCo &&& BCu)
  let Ebo := BCo ^^^ (~~~BCu &&& BCa)
  let Ebu := BCu ^^^ (~~~BCa &&& BCe)
  let Abo := Abo ^^^ D_o
  let BCa := rol Abo 28
  let Agu := Agu ^^^ Du
  let BCe := rol Agu 20
  let Aka := Aka ^^^ Da
  let BCi := rol Aka 3
  let Ame := Ame ^^^ De
  let BCo := rol Ame 45
  let Asi := Asi ^^^ Di
  let BCu := rol Asi 61
  let Ega := BCa ^^^ (~~~BCe &&& BCi)
  let Ege := BCe ^^^ (~~~BCi &&& BCo)
  let Egi := BCi ^^^ (~~~BCo &&& BCu)
  let Ego := BCo ^^^ (~~~BCu &&& BCa)
  let Egu := BCu ^^^ (~~~BCa &&& BCe)
  let Abe := Abe ^^^ De
  let BCa := rol Abe 1
  let Agi := Agi ^^^ Di
  let BCe := rol Agi 6
  let Ako := Ako ^^^ D_o
  let BCi := rol Ako 25
  let Amu := Amu ^^^ Du
  let BCo := rol Amu 8
  let Asa := Asa ^^^ Da
  let BCu := rol Asa 18
  let Eka := BCa ^^^ (~~~BCe &&& BCi)
  let Eke := BCe ^^^ (~~~BCi &&& BCo)
  let Eki := BCi ^^^ (~~~BCo &&& BCu)
  let Eko := BCo ^^^ (~~~BCu &&& BCa)
  let Eku := BCu ^^^ (~~~BCa &&& BCe)
  let Abu := Abu ^^^ Du
  let BCa := rol Abu 27
  let Aga := Aga ^^^ Da
  let BCe := rol Aga 36
  let Ake := Ake ^^^ De
  let BCi := rol Ake 10
  let Ami := Ami ^^^ Di
  let BCo := rol Ami 15
  let Aso := Aso ^^^ D_o
  let BCu := rol Aso 56
  let Ema := BCa ^^^ (~~~BCe &&& BCi)
  let Eme := BCe ^^^ (~~~BCi &&& BCo)
  let Emi := BCi ^^^ (~~~BCo &&& BCu)
  let Emo := BCo ^^^ (~~~BCu &&& BCa)
  let Emu := BCu ^^^ (~~~BCa &&& BCe)
  let Abi := Abi ^^^ Di
  let BCa := rol Abi 62
  let Ago := Ago ^^^ D_o
  let BCe := rol Ago 55
  let Aku := Aku ^^^ Du
  let BCi := rol Aku 39
  let Ama := Ama ^^^ Da
  let BCo := rol Ama 41
  let Ase := Ase ^^^ De
  let BCu := rol Ase 2
  let Esa := BCa ^^^ (~~~BCe &&& BCi)
  let Ese := BCe ^^^ (~~~BCi &&& BCo)
  let Esi := BCi ^^^ (~~~BCo &&& BCu)
  let Eso := BCo ^^^ (~~~BCu &&& BCa)
  let Esu := BCu ^^^ (~~~BCa &&& BCe)
  { ba := Eba, be := Ebe, bi := Ebi, bo := Ebo, bu := Ebu, ga := Ega, ge := Ege, gi := Egi, go := Ego, gu := Egu, ka := Eka, ke := Eke, ki := Eki, ko := Eko, ku := Eku, ma := Ema, me := Eme, mi := Emi, mo := Emo, mu := Emu, sa := Esa, se := Ese, si := Esi, so := Eso, su := Esu }

/-- Second half of the loop body (E to A), fips202.c:206-298. -/
def keccakHalfEA (rc : Lane) (s : KState) : KState :=
  let Eba := s.ba
  let Ebe := s.be
  let Ebi := s.bi
  let Ebo := s.bo
  let Ebu := s.bu
  let Ega := s.ga
  let Ege := s.ge
  let Egi := s.gi
  let Ego := s.go
  let Egu := s.gu
  let Eka := s.ka
  let Eke := s.ke
  let Eki := s.ki
  let Eko := s.ko
  let Eku := s.ku
  let Ema := s.ma
  let Eme := s.me
  let Emi := s.mi
  let Emo := s.mo
  let Emu := s.mu
  let Esa := s.sa
  let Ese := s.se
  let Esi := s.si
  let Eso := s.so
  let Esu := s.su
  let BCa := Eba ^^^ Ega ^^^ Eka ^^^ Ema ^^^ Esa
  let BCe := Ebe ^^^ Ege ^^^ Eke ^^^ Eme ^^^ Ese
  let BCi := Ebi ^^^ Egi ^^^ Eki ^^^ Emi ^^^ Esi
  let BCo := Ebo ^^^ Ego ^^^ Eko ^^^ Emo ^^^ Eso
  let BCu := Ebu ^^^ Egu ^^^ Eku ^^^ Emu ^^^ Esu
  let Da := BCu ^^^ (rol BCe 1)
  let De := BCa ^^^ (rol BCi 1)
  let Di := BCe ^^^ (rol BCo 1)
  let D_o := BCi ^^^ (rol BCu 1)
  let Du := BCo ^^^ (rol BCa 1)
  let Eba := Eba ^^^ Da
  let BCa := Eba
  let Ege := Ege ^^^ De
  let BCe := rol Ege 44
  let Eki := Eki ^^^ Di
  let BCi := rol Eki 43
  let Emo := Emo ^^^ D_o
  let BCo := rol Emo 21
  let Esu := Esu ^^^ Du
  let BCu := rol Esu 14
  let Aba := BCa ^^^ (~~~BCe &&& BCi)
  let Aba := Aba ^^^ rc
  let Abe := BCe ^^^ (~~~BCi &&& BCo)
  let Abi := BCi ^^^ (~~~BCo &&& BCu)
  let Abo := BCo ^^^ (~~~BCu &&& BCa)
  let Abu := BCu ^^^ (~~~BCa &&& BCe)
  let Ebo := Ebo ^^^ D_o
  let BCa := rol Ebo 28
  let Egu := Egu ^^^ Du
  let BCe := rol Egu 20
  let Eka := Eka ^^^ Da
  let BCi := rol Eka 3
  let Eme := Eme ^^^ De
  let BCo := rol Eme 45
  let Esi := Esi ^^^ Di
  let BCu := rol Esi 61
  let Aga := BCa ^^^ (~~~BCe &&& BCi)
  let Age := BCe ^^^ (~~~BCi &&& BCo)
  let Agi := BCi ^^^ (~~~BCo &&& BCu)
  let Ago := BCo ^^^ (~~~BCu &&& BCa)
  let Agu := BCu ^^^ (~~~BCa &&& BCe)
  let Ebe := Ebe ^^^ De
  let BCa := rol Ebe 1
  let Egi := Egi ^^^ Di
  let BCe := rol Egi 6
  let Eko := Eko ^^^ D_o
  let BCi := rol Eko 25
  let Emu := Emu ^^^ Du
  let BCo := rol Emu 8
  let Esa := Esa ^^^ Da
  let BCu := rol Esa 18
  let Aka := BCa ^^^ (~~~BCe &&& BCi)
  let Ake := BCe ^^^ (~~~BCi &&& BCo)
  let Aki := BCi ^^^ (~~~BCo &&& BCu)
  let Ako := BCo ^^^ (~~~BCu &&& BCa)
  let Aku := BCu ^^^ (~~~BCa &&& BCe)
  let Ebu := Ebu ^^^ Du
  let BCa := rol Ebu 27
  let Ega := Ega ^^^ Da
  let BCe := rol Ega 36
  let Eke := Eke ^^^ De
  let BCi := rol Eke 10
  let Emi := Emi ^^^ Di
  let BCo := rol Emi 15
  let Eso := Eso ^^^ D_o
  let BCu := rol Eso 56
  let Ama := BCa ^^^ (~~~BCe &&& BCi)
  let Ame := BCe ^^^ (~~~BCi &&& BCo)
  let Ami := BCi ^^^ (~~~BCo &&& BCu)
  let Amo := BCo ^^^ (~~~BCu &&& BCa)
  let Amu := BCu ^^^ (~~~BCa &&& BCe)
  let Ebi := Ebi ^^^ Di
  let BCa := rol Ebi 62
  let Ego := Ego ^^^ D_o
  let BCe := rol Ego 55
  let Eku := Eku ^^^ Du
  let BCi := rol Eku 39
  let Ema := Ema ^^^ Da
  let BCo := rol Ema 41
  let Ese := Ese ^^^ De
  let BCu := rol Ese 2
  let Asa := BCa ^^^ (~~~BCe &&& BCi)
  let Ase := BCe ^^^ (~~~BCi &&& BCo)
  let Asi := BCi ^^^ (~~~BCo &&& BCu)
  let Aso := BCo ^^^ (~~~BCu &&& BCa)
  let Asu := BCu ^^^ (~~~BCa &&& BCe)
  { ba := Aba, be := Abe, bi := Abi, bo := Abo, bu := Abu, ga := Aga, ge := Age, gi := Agi, go := Ago, gu := Agu, ka := Aka, ke := Ake, ki := Aki, ko := Ako, ku := Aku, ma := Ama, me := Ame, mi := Ami, mo := Amo, mu := Amu, sa := Asa, se := Ase, si := Asi, so := Aso, su := Asu }

/-- `for (round = 0; round < NROUNDS; round += 2)`, fips202.c:109-300: `k` double rounds remain. -/
def keccakRounds : Nat → Nat → KState → KState
  | 0, _, s => s
  | k + 1, round, s =>
    keccakRounds k (round + 2)
      (keccakHalfEA (keccakRC.getD (round + 1) 0) (keccakHalfAE (keccakRC.getD round 0) s))

/-- copyFromState, fips202.c:82-107; the state array has 25 lanes. -/
def copyFromState (st : List Lane) : KState :=
  { ba := st.getD 0 0, be := st.getD 1 0, bi := st.getD 2 0, bo := st.getD 3 0, bu := st.getD 4 0,
    ga := st.getD 5 0, ge := st.getD 6 0, gi := st.getD 7 0, go := st.getD 8 0, gu := st.getD 9 0,
    ka := st.getD 10 0, ke := st.getD 11 0, ki := st.getD 12 0, ko := st.getD 13 0, ku := st.getD 14 0,
    ma := st.getD 15 0, me := st.getD 16 0, mi := st.getD 17 0, mo := st.getD 18 0, mu := st.getD 19 0,
    sa := st.getD 20 0, se := st.getD 21 0, si := st.getD 22 0, so := st.getD 23 0, su := st.getD 24 0 }

/-- copyToState, fips202.c:301-326. -/
def copyToState (s : KState) : List Lane :=
  [s.ba, s.be, s.bi, s.bo, s.bu,
   s.ga, s.ge, s.gi, s.go, s.gu,
   s.ka, s.ke, s.ki, s.ko, s.ku,
   s.ma, s.me, s.mi, s.mo, s.mu,
   s.sa, s.se, s.si, s.so, s.su]

/-- `KeccakF1600_StatePermute`, fips202.c:65-327 (NROUNDS = 24, two rounds per iteration). -/
def keccakPermute (st : List Lane) : List Lane := copyToState (keccakRounds 12 0 (copyFromState st))

/-- `for (i = 0; i < r / 8; ++i) s[i] ^= load64(m + 8 * i)`, fips202.c:337-339 and 353-355:
`k` lanes remain; the lists are the tail of the state and the rest of the block. -/
def xorBlock : Nat → List Lane → Bytes → List Lane
  | 0, s, _ => s
  | _ + 1, [], _ => []
  | k + 1, l :: ls, m => (l ^^^ load64 m) :: xorBlock k ls (m.drop 8)

/-- The final block `t` of `keccak_absorb`, fips202.c:345-352, for a rest `m` of fewer than `r` bytes. -/
def lastBlock (r : Nat) (m : Bytes) (pad : UInt8) : Bytes :=
  let t : Bytes := m ++ List.replicate (r - m.length) 0
  let t := t.set m.length pad
  t.set (r - 1) (t.getD (r - 1) 0 ||| 128)

/-- `keccak_absorb`, fips202.c:329-356.  The `while (mlen >= r)` loop runs at most `fuel` times; `fuel = mlen` is
enough since each iteration consumes `r > 0` bytes. -/
def keccakAbsorbLoop (r : Nat) (pad : UInt8) : Nat → List Lane → Bytes → List Lane
  | 0, s, m => xorBlock (r / 8) s (lastBlock r m pad)
  | fuel + 1, s, m =>
    if r ≤ m.length then keccakAbsorbLoop r pad fuel (keccakPermute (xorBlock (r / 8) s m)) (m.drop r)
    else xorBlock (r / 8) s (lastBlock r m pad)

/-- `keccak_absorb`, fips202.c:329-356. -/
def keccakAbsorb (r : Nat) (s : List Lane) (m : Bytes) (pad : UInt8) : List Lane :=
  keccakAbsorbLoop r pad m.length s m

/-- `keccak_squeezeblocks`, fips202.c:358-371; returns the output blocks and the state. -/
def keccakSqueezeblocks (r : Nat) : Nat → List Lane → Bytes × List Lane
  | 0, s => ([], s)
  | k + 1, s =>
    let s := keccakPermute s
    let h := ((s.take (r >>> 3)).map store64).flatten
    let q := keccakSqueezeblocks r k s
    (h ++ q.1, q.2)

/-- Common body of `shake128` (fips202.c:373-394) and `shake256` (396-417), which differ only in the rate. -/
def shakeRate (r outlen : Nat) (inp : Bytes) : Bytes :=
  let s := List.replicate 25 (0 : Lane)
  let s := keccakAbsorb r s inp 0x1F
  let q := keccakSqueezeblocks r (outlen / r) s
  if outlen % r = 0 then q.1
  else q.1 ++ (keccakSqueezeblocks r 1 q.2).1.take (outlen % r)

/-- `shake128`, fips202.c:373-394; `SHAKE128_RATE` fips202.h:4. -/
def shake128 (outlen : Nat) (inp : Bytes) : Bytes := shakeRate 168 outlen inp

/-- `shake256`, fips202.c:396-417; `SHAKE256_RATE` fips202.h:5. -/
def shake256 (outlen : Nat) (inp : Bytes) : Bytes := shakeRate 136 outlen inp

end Xmss
