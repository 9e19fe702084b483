#!/usr/bin/env python3
"""Generates lean/Verif/Model/Keccak.lean: the unrolled permutation is transcribed statement by statement from
/repo/fips202.c (lines 110-299)."""
import re
src = open('/repo/fips202.c').read().split('\n')
def half(lo, hi, inp, outp):
    out = []
    for ln in range(lo, hi + 1):
        s = src[ln-1].strip()
        if not s or s.startswith('//'): continue
        s = s.rstrip(';').strip()
        s = re.sub(r'\(uint64_t\)KeccakF_RoundConstants\[round(\+1)?\]', 'rc', s)
        m = re.match(r'^(\w+)\s*\^=\s*(.*)$', s)
        if m: s = f'{m.group(1)} = {m.group(1)} ^ {m.group(2)}'
        l, r = [t.strip() for t in s.split('=', 1)]
        r = re.sub(r'ROL\((\w+),\s*(\d+)\)', r'rol \1 \2', r)
        if r.startswith('rol'): pass
        r = re.sub(r'\^\s*rol (\w+) (\d+)', r'^ (rol \1 \2)', r)
        r = re.sub(r'\(\(~(\w+)\)&\s*(\w+)\s*\)', r'(~~~\1 &&& \2)', r)
        r = re.sub(r'\s*\^\s*', ' ^^^ ', r)
        r = r.replace('^^^  ^^^  ^^^', '^^^')
        out.append(f'  let {ren(l)} := {re.sub(r"[A-Za-z]+", lambda m: ren(m.group(0)), r)}')
    return out
def ren(x):
    return 'D_o' if x == 'Do' else x
names = [a + b for a in 'bgkms' for b in 'aeiou']
def find(txt, start=1):
    for i in range(start, len(src) + 1):
        if src[i-1].strip().startswith(txt): return i
p1 = find('BCa = Aba^Aga'); p2 = find('BCa = Eba^Ega'); 
e1 = p2 - 3
end = find('//copyToState(state, A)')
e2 = end - 3
rcs = [re.search(r'0x[0-9a-f]+', src[i-1]).group(0) for i in range(39, 63)]
o = []
o.append('''import Verif.Model.Bytes
/-
Model of fips202.c.  Generated by tools/gen_keccak.py from the C text (the unrolled permutation is transcribed
statement by statement; `X ^= e` becomes `let X := X ^^^ e`).
-/
namespace Xmss

/-- A 64-bit lane, `uint64_t`. -/
abbrev Lane := BitVec 64

/-- `ROL`, fips202.c:15. -/
def rol (a : Lane) (offset : Nat) : Lane := (a <<< offset) ^^^ (a >>> (64 - offset))

/-- Loop of `load64`, fips202.c:21-23; `i` is the loop counter. -/
def load64Loop : Nat → Bytes → Lane → Lane
  | _, [], r => r
  | i, b :: bs, r => load64Loop (i + 1) bs (r ||| (BitVec.ofNat 64 b.toNat <<< (8 * i)))

/-- `load64`, fips202.c:17-25, on the first 8 bytes of its argument. -/
def load64 (x : Bytes) : Lane := load64Loop 0 (x.take 8) 0

/-- Loop of `store64`, fips202.c:31-34. -/
def store64Loop : Nat → Lane → Bytes
  | 0, _ => []
  | k + 1, u => UInt8.ofNat u.toNat :: store64Loop k (u >>> 8)

/-- `store64`, fips202.c:27-35. -/
def store64 (u : Lane) : Bytes := store64Loop 8 u

/-- `KeccakF_RoundConstants`, fips202.c:37-63. -/
def keccakRC : List Lane :=
  [''' + ',\n   '.join(', '.join(f'{c}#64' for c in rcs[i:i+3]) for i in range(0, 24, 3)) + ''']

/-- The 25 local lane variables of `KeccakF1600_StatePermute` (`Aba` .. `Asu`, fips202.c:69-73, or `Eba` .. `Esu`, 76-80). -/
@[ext] structure KState where''')
for a in 'bgkms':
    o.append('  ' + '\n  '.join(f'{a}{b} : Lane' for b in 'aeiou'))
o.append('')
def emit(name, lo, hi, inp, outp, doc):
    o.append(f'/-- {doc} -/')
    o.append(f'def {name} (rc : Lane) (s : KState) : KState :=')
    for x in names: o.append(f'  let {inp}{x} := s.{x}')
    o.extend(half(lo, hi, inp, outp))
    o.append('  { ' + ', '.join(f'{x} := {outp}{x}' for x in names) + ' }')
    o.append('')
emit('keccakHalfAE', p1, e1, 'A', 'E', f'First half of the loop body of `KeccakF1600_StatePermute` (A to E), fips202.c:{p1}-{e1}.')
emit('keccakHalfEA', p2, e2, 'E', 'A', f'Second half of the loop body (E to A), fips202.c:{p2}-{e2}.')
o.append('''/-- `for (round = 0; round < NROUNDS; round += 2)`, fips202.c:109-300: `k` double rounds remain. -/
def keccakRounds : Nat → Nat → KState → KState
  | 0, _, s => s
  | k + 1, round, s =>
    keccakRounds k (round + 2)
      (keccakHalfEA (keccakRC.getD (round + 1) 0) (keccakHalfAE (keccakRC.getD round 0) s))

/-- copyFromState, fips202.c:82-107; the state array has 25 lanes. -/
def copyFromState (st : List Lane) : KState :=
  { ''' + ',\n    '.join(', '.join(f'{a}{b} := st.getD {5*i+j} 0' for j, b in enumerate('aeiou')) for i, a in enumerate('bgkms')) + ''' }

/-- copyToState, fips202.c:301-326. -/
def copyToState (s : KState) : List Lane :=
  [''' + ',\n   '.join(', '.join(f's.{a}{b}' for b in 'aeiou') for a in 'bgkms') + ''']

/-- `KeccakF1600_StatePermute`, fips202.c:65-327 (NROUNDS = 24, two rounds per iteration). -/
def keccakPermute (st : List Lane) : List Lane := copyToState (keccakRounds 12 0 (copyFromState st))

/-- `for (i = 0; i < r / 8; ++i) s[i] ^= load64(m + 8 * i)`, fips202.c:337-339 and 353-355:
`k` lanes remain; the lists are the tail of the state and the rest of the block. -/
def xorBlock : Nat → List Lane → Bytes → List Lane
  | 0, s, _ => s
  | _ + 1, [], _ => []
  | k + 1, l :: ls, m => (l ^^^ load64 m) :: xorBlock k ls (m.drop 8)

/-- The final block `t` of `keccak_absorb`, fips202.c:345-352, for a rest `m` of fewer than `r` bytes. -/
def lastBlock (r : Nat) (m : Bytes) (pad : UInt8) : Bytes :=
  let t : Bytes := m ++ List.replicate (r - m.length) 0
  let t := t.set m.length pad
  t.set (r - 1) (t.getD (r - 1) 0 ||| 128)

/-- `keccak_absorb`, fips202.c:329-356.  The `while (mlen >= r)` loop runs at most `fuel` times; `fuel = mlen` is
enough since each iteration consumes `r > 0` bytes. -/
def keccakAbsorbLoop (r : Nat) (pad : UInt8) : Nat → List Lane → Bytes → List Lane
  | 0, s, m => xorBlock (r / 8) s (lastBlock r m pad)
  | fuel + 1, s, m =>
    if r ≤ m.length then keccakAbsorbLoop r pad fuel (keccakPermute (xorBlock (r / 8) s m)) (m.drop r)
    else xorBlock (r / 8) s (lastBlock r m pad)

/-- `keccak_absorb`, fips202.c:329-356. -/
def keccakAbsorb (r : Nat) (s : List Lane) (m : Bytes) (pad : UInt8) : List Lane :=
  keccakAbsorbLoop r pad m.length s m

/-- `keccak_squeezeblocks`, fips202.c:358-371; returns the output blocks and the state. -/
def keccakSqueezeblocks (r : Nat) : Nat → List Lane → Bytes × List Lane
  | 0, s => ([], s)
  | k + 1, s =>
    let s := keccakPermute s
    let h := ((s.take (r >>> 3)).map store64).flatten
    let q := keccakSqueezeblocks r k s
    (h ++ q.1, q.2)

/-- Common body of `shake128` (fips202.c:373-394) and `shake256` (396-417), which differ only in the rate. -/
def shakeRate (r outlen : Nat) (inp : Bytes) : Bytes :=
  let s := List.replicate 25 (0 : Lane)
  let s := keccakAbsorb r s inp 0x1F
  let q := keccakSqueezeblocks r (outlen / r) s
  if outlen % r = 0 then q.1
  else q.1 ++ (keccakSqueezeblocks r 1 q.2).1.take (outlen % r)

/-- `shake128`, fips202.c:373-394; `SHAKE128_RATE` fips202.h:4. -/
def shake128 (outlen : Nat) (inp : Bytes) : Bytes := shakeRate 168 outlen inp

/-- `shake256`, fips202.c:396-417; `SHAKE256_RATE` fips202.h:5. -/
def shake256 (outlen : Nat) (inp : Bytes) : Bytes := shakeRate 136 outlen inp

end Xmss
''')
open('/verif/lean/Verif/Model/Keccak.lean', 'w').write('\n'.join(o))
