import Verif.Model.Hash
/-
Model of wots.c.  Arrays of `wots_len` n-byte nodes are `List Bytes`.
-/
namespace Xmss

/-- Loop of `expand_seed`, wots.c:24-28; `k` iterations remain, the next chain is `i`. -/
def expandSeedLoop (H : Bytes → Bytes) (p : Params) (inseed pubSeed : Bytes) :
    Nat → Nat → Addr → List Bytes × Addr
  | 0, _, addr => ([], addr)
  | k + 1, i, addr =>
    let addr := setChainAddr addr i
    let node := prfKeygen H p (pubSeed ++ addrToBytes addr) inseed
    let r := expandSeedLoop H p inseed pubSeed k (i + 1) addr
    (node :: r.1, r.2)

/-- `expand_seed`, wots.c:14-29. -/
def expandSeed (H : Bytes → Bytes) (p : Params) (inseed pubSeed : Bytes) (addr : Addr) : List Bytes × Addr :=
  let addr := setHashAddr addr 0
  let addr := setKeyAndMask addr 0
  expandSeedLoop H p inseed pubSeed p.wots_len 0 addr

/-- Loop of `gen_chain`, wots.c:49-52: `k` iterations remain, the next one has loop counter `i`. -/
def genChainLoop (H : Bytes → Bytes) (p : Params) (pubSeed : Bytes) : Nat → Nat → Bytes → Addr → Bytes × Addr
  | 0, _, out, addr => (out, addr)
  | k + 1, i, out, addr =>
    let r := thashF H p out pubSeed (setHashAddr addr i)
    genChainLoop H p pubSeed k (i + 1) r.1 r.2

/-- `gen_chain`, wots.c:38-53.  The loop `for (i = start; i < start+steps && i < w; i++)` makes
`min (start+steps) w - start` iterations. -/
def genChain (H : Bytes → Bytes) (p : Params) (inp : Bytes) (start steps : Nat) (pubSeed : Bytes) (addr : Addr) :
    Bytes × Addr :=
  genChainLoop H p pubSeed (min (start + steps) p.wots_w - start) start inp addr

/-- Loop of `base_w`, wots.c:69-78, with the locals `in`, `total`, `bits`; `k` outputs remain.
Simplification: a read past the end of `input` gives 0 here (that no such read happens is proved separately). -/
def baseWLoop (p : Params) (input : Bytes) : Nat → Nat → Nat → Nat → List Nat
  | 0, _, _, _ => []
  | k + 1, inp, total, bits =>
    let s : Nat × Nat × Nat :=
      if bits = 0 then (inp + 1, (input.getD inp 0).toNat, bits + 8) else (inp, total, bits)
    let bits := s.2.2 - p.wots_log_w
    ((s.2.1 >>> bits) &&& (p.wots_w - 1)) :: baseWLoop p input k s.1 s.2.1 bits

/-- `base_w`, wots.c:60-79. -/
def baseW (p : Params) (outLen : Nat) (input : Bytes) : List Nat := baseWLoop p input outLen 0 0 0

/-- The checksum loop, wots.c:90-92. -/
def csumLoop (p : Params) : List Nat → Nat → Nat
  | [], csum => csum
  | x :: xs, csum => csumLoop p xs (csum + (p.wots_w - 1 - x))

/-- `wots_checksum`, wots.c:82-99. -/
def wotsChecksum (p : Params) (msgBaseW : List Nat) : List Nat :=
  let csum := csumLoop p msgBaseW 0
  let csum := csum <<< (8 - (p.wots_len2 * p.wots_log_w) % 8)
  let csumBytes := ullToBytes ((p.wots_len2 * p.wots_log_w + 7) / 8) csum
  baseW p p.wots_len2 csumBytes

/-- `chain_lengths`, wots.c:102-107. -/
def chainLengths (p : Params) (msg : Bytes) : List Nat :=
  let msgW := baseW p p.wots_len1 msg
  msgW ++ wotsChecksum p msgW

/-- The loop `for (i = 0; i < wots_len; i++) { set_chain_addr(addr, i); gen_chain(...) }` shared by
wots_pkgen (wots.c:126-130), wots_sign (149-153) and wots_pk_from_sig (171-175): for each chain `(input, start, steps)`. -/
def chainsLoop (H : Bytes → Bytes) (p : Params) (pubSeed : Bytes) :
    Nat → List (Bytes × Nat × Nat) → Addr → List Bytes × Addr
  | _, [], addr => ([], addr)
  | i, (x, start, steps) :: rest, addr =>
    let r := genChain H p x start steps pubSeed (setChainAddr addr i)
    let r' := chainsLoop H p pubSeed (i + 1) rest r.2
    (r.1 :: r'.1, r'.2)

/-- `wots_pkgen`, wots.c:117-131. -/
def wotsPkgen (H : Bytes → Bytes) (p : Params) (seed pubSeed : Bytes) (addr : Addr) : List Bytes × Addr :=
  let r := expandSeed H p seed pubSeed addr
  chainsLoop H p pubSeed 0 (r.1.map fun x => (x, 0, p.wots_w - 1)) r.2

/-- `wots_sign`, wots.c:137-155. -/
def wotsSign (H : Bytes → Bytes) (p : Params) (msg seed pubSeed : Bytes) (addr : Addr) : List Bytes × Addr :=
  let lengths := chainLengths p msg
  let r := expandSeed H p seed pubSeed addr
  chainsLoop H p pubSeed 0 (List.zipWith (fun x l => (x, 0, l)) r.1 lengths) r.2

/-- `wots_pk_from_sig`, wots.c:162-176. -/
def wotsPkFromSig (H : Bytes → Bytes) (p : Params) (sig : List Bytes) (msg pubSeed : Bytes) (addr : Addr) :
    List Bytes × Addr :=
  let lengths := chainLengths p msg
  chainsLoop H p pubSeed 0 (List.zipWith (fun x l => (x, l, p.wots_w - 1 - l)) sig lengths) addr

end Xmss
