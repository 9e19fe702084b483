import Verif.Model.UiFast
import Verif.Props.Ui
import Verif.Props.FastHistory
/-
C51: the command line tools from end to end, in both builds; C43 for the tools linked with the fast implementation.
-/
namespace Xmss

variable {P : Prims} {f : Family} {oid : Nat} {p pf : Params} {H : Bytes → Bytes}

theorem uiParseFast_eq (f : Family) : uiParseFast f = f.parseFast := by cases f <;> rfl
theorem uiSignCallFast_eq (P : Prims) (f : Family) : uiSignCallFast P f = f.signFast P := by cases f <;> rfl
theorem uiKeypairCallFast_eq (P : Prims) (f : Family) : uiKeypairCallFast P f = f.keypairFast P := by cases f <;> rfl

/-- Reading a key-pair file `OID || public key || OID || secret key || anything`. -/
theorem uiSignReadFast_eq {oidp : Nat} {pp : Params} (hpp : f.parseFast oidp = some pp) (hp : f.parseFast oid = some p)
    (pkb body tail : Bytes) (hpk : pkb.length = pp.pk_bytes) (hsk : body.length = p.sk_bytes) :
    uiSignReadFast f (Rfc.toByte oidp 4 ++ pkb ++ (Rfc.toByte oid 4 ++ body) ++ tail) =
      some (some (4 + pp.pk_bytes, p, Rfc.toByte oid 4 ++ body)) := by
  obtain ⟨_, _, ho1, _⟩ := parseFast_good hpp
  obtain ⟨_, _, ho2, _⟩ := parseFast_good hp
  have r1 : rd (Rfc.toByte oidp 4 ++ pkb ++ (Rfc.toByte oid 4 ++ body) ++ tail) 0 oidLen = some (Rfc.toByte oidp 4) := by
    have := rd_append [] (Rfc.toByte oidp 4) (pkb ++ (Rfc.toByte oid 4 ++ body) ++ tail) (off := 0) (len := oidLen) rfl
      (toByte_length _ _).symm
    simpa using this
  have r2 : rd (Rfc.toByte oidp 4 ++ pkb ++ (Rfc.toByte oid 4 ++ body) ++ tail) (oidLen + pp.pk_bytes) oidLen =
      some (Rfc.toByte oid 4) := by
    have := rd_append (Rfc.toByte oidp 4 ++ pkb) (Rfc.toByte oid 4) (body ++ tail) (off := oidLen + pp.pk_bytes) (len := oidLen)
      (by rw [List.length_append, toByte_length, hpk]; rfl) (toByte_length _ _).symm
    simpa using this
  have r3 : rd (Rfc.toByte oidp 4 ++ pkb ++ (Rfc.toByte oid 4 ++ body) ++ tail) (oidLen + pp.pk_bytes) (oidLen + p.sk_bytes) =
      some (Rfc.toByte oid 4 ++ body) :=
    rd_append (Rfc.toByte oidp 4 ++ pkb) _ tail (by rw [List.length_append, toByte_length, hpk]; rfl)
      (by rw [List.length_append, toByte_length, hsk]; rfl)
  rw [uiSignReadFast, r1, uiParseFast_eq]
  simp only [Option.bind_eq_bind, Option.bind_some, bytesToUll_oid ho1, hpp, r2, bytesToUll_oid ho2, hp, r3]
  rfl

/-- One run of the fast sign tool in terms of the `sign` call it makes. -/
theorem uiSignFast_eq {oidp : Nat} {pp : Params} (hpp : f.parseFast oidp = some pp) (hp : f.parseFast oid = some p)
    (junk : Nat → Bytes) (l0 : Nat) (pkb body tail m : Bytes) (hpk : pkb.length = pp.pk_bytes) (hsk : body.length = p.sk_bytes)
    {o : FastOut} {body' : Bytes} (hb : body'.length = p.sk_bytes)
    (e : f.signFast P (Rfc.toByte oid 4 ++ body) (junk (p.sig_bytes + m.length)) l0 m =
      some { o with sk := Rfc.toByte oid 4 ++ body' }) :
    uiSignFast P f junk l0 (some (Rfc.toByte oidp 4 ++ pkb ++ (Rfc.toByte oid 4 ++ body) ++ tail)) (some m) =
      if o.smlen ≤ o.sm.length then
        some { exit := 0, keyFile := some (Rfc.toByte oidp 4 ++ pkb ++ (Rfc.toByte oid 4 ++ body') ++ tail)
               stdout := o.sm.take o.smlen }
      else none := by
  have hw : wr (Rfc.toByte oidp 4 ++ pkb ++ (Rfc.toByte oid 4 ++ body) ++ tail) (4 + pp.pk_bytes + oidLen) body' =
      some (Rfc.toByte oidp 4 ++ pkb ++ (Rfc.toByte oid 4 ++ body') ++ tail) := by
    have := wr_append (Rfc.toByte oidp 4 ++ pkb ++ Rfc.toByte oid 4) body tail body' (off := 4 + pp.pk_bytes + oidLen)
      (by simp only [List.length_append, toByte_length, hpk, oidLen]) (by rw [hb, hsk])
    simpa using this
  have hd : ((Rfc.toByte oid 4 ++ body').drop oidLen).take p.sk_bytes = body' := by
    rw [show oidLen = 4 from rfl, List.drop_left' (toByte_length _ _), List.take_of_length_le hb.le]
  rw [uiSignFast, uiSignCallFast_eq]
  simp only [uiSignReadFast_eq hpp hp pkb body tail hpk hsk, Option.bind_eq_bind, Option.bind_some, e, hd, hw]
  rw [rd, Nat.zero_add]
  split
  · simp
  · rfl

/-- **C43 is false of the fast tools, too.**  For every exhausted key file, whatever its state contains, `sign` returns -2
and does not touch `smlen`, which the tool has not initialised: if its old content is at most `sig_bytes + mlen`, the tool
exits with status 0 and writes that many bytes of a fresh buffer; otherwise it reads behind the end of that buffer. -/
theorem C43_fails_fast {oidp : Nat} {pp : Params} (hpp : f.parseFast oidp = some pp) (hp : f.parseFast oid = some p)
    (junk : Nat → Bytes) (hj : Fresh junk) (smlen0 : Nat)
    (pkb ib rest tail m : Bytes) (hpk : pkb.length = pp.pk_bytes) (hib : ib.length = p.index_bytes)
    (hsk : p.index_bytes + rest.length = p.sk_bytes) (h1 : 2 ^ p.full_height ≤ Rfc.toNat ib) :
    ∃ o, f.signFast P (Rfc.toByte oid 4 ++ (ib ++ rest)) (junk (p.sig_bytes + m.length)) smlen0 m = some o ∧ o.ret = -2 ∧
      (smlen0 ≤ p.sig_bytes + m.length → ∃ r,
        uiSignFast P f junk smlen0 (some (Rfc.toByte oidp 4 ++ pkb ++ (Rfc.toByte oid 4 ++ (ib ++ rest)) ++ tail)) (some m) =
          some r ∧ r.exit = 0 ∧ r.stdout = (junk (p.sig_bytes + m.length)).take smlen0) ∧
      (p.sig_bytes + m.length < smlen0 →
        uiSignFast P f junk smlen0 (some (Rfc.toByte oidp 4 ++ pkb ++ (Rfc.toByte oid 4 ++ (ib ++ rest)) ++ tail)) (some m) =
          none) := by
  obtain ⟨H, hH, _⟩ := Family.hashFast (P := P) hp
  obtain ⟨_, _, ho, _⟩ := parseFast_good hp
  have e : f.signFast P (Rfc.toByte oid 4 ++ (ib ++ rest)) (junk (p.sig_bytes + m.length)) smlen0 m =
      some { ret := -2, sk := Rfc.toByte oid 4 ++ (List.replicate p.index_bytes 0xFF ++ List.replicate rest.length 0),
             sm := junk (p.sig_bytes + m.length), smlen := smlen0, leaves := 0 } := by
    cases f with
    | xmss =>
      show xmssSignFast P _ _ _ _ = _
      rw [xmssSignFast, apiSignFast, readOid_toByte (by omega)]
      have hp' : parseXmssFast oid = some p := hp
      simp only [Option.bind_eq_bind, Option.bind_some, hp', hH, show oidLen = 4 from rfl, List.drop_left' (toByte_length oid 4),
        List.take_left' (toByte_length oid 4)]
      rw [fastXmssSign_exhausted (parseFast_fast1 hp) hib hsk h1]
      rfl
    | xmssmt =>
      show xmssmtSignFast P _ _ _ _ = _
      rw [xmssmtSignFast, apiSignFast, readOid_toByte (by omega)]
      have hp' : parseXmssmtFast oid = some p := hp
      simp only [Option.bind_eq_bind, Option.bind_some, hp', hH, show oidLen = 4 from rfl, List.drop_left' (toByte_length oid 4),
        List.take_left' (toByte_length oid 4)]
      rw [fastXmssmtSign_exhausted (parseFast_mt hp) hib hsk h1]
      rfl
  have hrun := uiSignFast_eq (P := P) hpp hp junk smlen0 pkb (ib ++ rest) tail m hpk (by rw [List.length_append, hib, hsk])
    (o := { ret := -2, sk := [], sm := junk (p.sig_bytes + m.length), smlen := smlen0, leaves := 0 })
    (body' := List.replicate p.index_bytes 0xFF ++ List.replicate rest.length 0) (by simp [hsk]) e
  refine ⟨_, e, rfl, ?_, ?_⟩
  · intro h
    rw [hrun, if_pos (by rw [hj]; exact h)]
    exact ⟨_, rfl, rfl, rfl⟩
  · intro h
    rw [hrun, if_neg (by rw [hj]; exact Nat.not_le.mpr h)]

/-! ### C51 -/

/-- What one run of a sign tool finds: the content of fresh memory, the content of the uninitialised variable `smlen`, and
the message file. -/
structure ToolRun where
  junk : Nat → Bytes
  smlen0 : Nat
  msg : Bytes

/-- Runs of the simple sign tool one after the other on the same key file. -/
def toolRuns (P : Prims) (f : Family) : Option Bytes → List ToolRun → Option (List SignRun)
  | _, [] => some []
  | key, t :: ts => do
    let r ← uiSign P f t.junk key (some t.msg)
    let rs ← toolRuns P f r.keyFile ts
    some (r :: rs)

/-- Runs of the fast sign tool one after the other on the same key file. -/
def toolRunsFast (P : Prims) (f : Family) : Option Bytes → List ToolRun → Option (List SignRun)
  | _, [] => some []
  | key, t :: ts => do
    let r ← uiSignFast P f t.junk t.smlen0 key (some t.msg)
    let rs ← toolRunsFast P f r.keyFile ts
    some (r :: rs)

/-- What run number `j` (from 0) of a sign tool must achieve: exit status 0; the key file keeps its length, its public key
and now stores the index `j + 1`; the output is index `j`, the rest of a signature, and the message; and the verification
tools of both builds accept it (exit status 0) with this key file, whatever fresh memory contains. -/
structure GoodRun (P : Prims) (f : Family) (p : Params) (file : Bytes) (j : Nat) (t : ToolRun) (r : SignRun) : Prop where
  exit : r.exit = 0
  key : ∃ key, r.keyFile = some key ∧ key.length = file.length ∧ key.take (4 + p.pk_bytes) = file.take (4 + p.pk_bytes) ∧
    (key.drop (4 + p.pk_bytes + 4)).take p.index_bytes = Rfc.toByte (j + 1) p.index_bytes ∧
    ∀ junk, Fresh junk → uiOpen P f junk (some key) (some r.stdout) = some 0 ∧
      uiOpenFast P f junk (some key) (some r.stdout) = some 0
  size : r.stdout.length = p.sig_bytes + t.msg.length
  index : r.stdout.take p.index_bytes = Rfc.toByte j p.index_bytes
  msg : r.stdout.drop p.sig_bytes = t.msg

/-- The verification tools of the two builds do the same on all files. -/
theorem uiOpenFast_eq (junk : Nat → Bytes) (key sm : Option Bytes) : uiOpenFast P f junk key sm = uiOpen P f junk key sm := by
  unfold uiOpenFast uiOpen
  cases key with
  | none => rfl
  | some key =>
    cases sm with
    | none => rfl
    | some sm =>
      simp only
      congr 1; funext b
      congr 1; funext oid
      rw [uiParseFast_eq]
      cases hp : f.parse oid with
      | some p =>
        obtain ⟨pf, hpf, rfl⟩ := parse_both hp
        simp only [hpf]
        congr 1; funext pk
        have := C49_open_is_the_same (P := P) (f := f) (junk sm.length) (junk 0).length sm sm.length pk
        rw [Family.signOpenFast] at this
        rw [this]
      | none =>
        cases hpf : f.parseFast oid with
        | none => rfl
        | some pf =>
          exfalso
          cases f with
          | xmss =>
            have h1 : (xmssParseOid slowSkBytes oid).isSome := by
              rw [C02_xmss_oids slowSkBytes oid, ← C02_xmss_oids fastSkBytes oid]
              rw [show xmssParseOid fastSkBytes oid = some pf from hpf]; rfl
            rw [show xmssParseOid slowSkBytes oid = none from hp] at h1
            cases h1
          | xmssmt =>
            have h1 : (xmssmtParseOid slowSkBytes oid).isSome := by
              rw [C02_xmssmt_oids slowSkBytes oid, ← C02_xmssmt_oids fastSkBytes oid]
              rw [show xmssmtParseOid fastSkBytes oid = some pf from hpf]; rfl
            rw [show xmssmtParseOid slowSkBytes oid = none from hp] at h1
            cases h1

/-- An honest RFC 8391 signature makes the verification tool exit with 0. -/
theorem uiOpen_honest (hp : f.parse oid = some p) (hH : coreHash P p.func p.n = some H) (junk : Nat → Bytes)
    (hj : Fresh junk) (k : Key) (hr : k.root.length = p.n) (hps : k.pubSeed.length = p.n) (hh : k.Honest (suiteOf p H))
    (tail msg : Bytes) {j : Nat} (hjl : j + 1 < 2 ^ p.full_height) (h64 : p.sig_bytes + msg.length < 2 ^ 64) :
    uiOpen P f junk (some (k.pk oid ++ tail))
      (some ((suiteOf p H).sign k.skSeed k.skPrf k.root k.pubSeed j msg ++ msg)) = some 0 := by
  obtain ⟨g, _, _, _⟩ := Family.facts (P := P) hp
  have hHl := Family.hash_length hp hH
  have hsl := sign_length g hHl k.skSeed k.skPrf k.root k.pubSeed j msg
  obtain ⟨st, e, _, h⟩ := C44_exit_status hp hH junk hj k hr hps tail _ msg hsl h64
  have hv : st = 0 := by
    rw [h, Rfc.Suite.verify, verifyRoot_sign g hHl _ _ _ _ _ _ (by have := g.idx_fits; omega),
      Nat.div_eq_of_lt (by omega)]
    exact hh.symm
  rw [e, hv]

theorem toolRunsFast_eq {oidp : Nat} {pp : Params} (hpp : f.parseFast oidp = some pp) (hp : f.parseFast oid = some p)
    (pkb tail : Bytes) (hpk : pkb.length = pp.pk_bytes) : ∀ (ts : List ToolRun) (body : Bytes) (os : List FastOut),
    body.length = p.sk_bytes → (∀ o ∈ os, o.sk.length = p.sk_bytes ∧ o.smlen ≤ o.sm.length) →
    signAllFast P f (Rfc.toByte oid 4 ++ body) (ts.map fun t => ⟨t.junk (p.sig_bytes + t.msg.length), t.smlen0, t.msg⟩) =
      some (os.map fun o => { o with sk := Rfc.toByte oid 4 ++ o.sk }) →
    toolRunsFast P f (some (Rfc.toByte oidp 4 ++ pkb ++ (Rfc.toByte oid 4 ++ body) ++ tail)) ts = some (os.map fun o =>
      { exit := 0, keyFile := some (Rfc.toByte oidp 4 ++ pkb ++ (Rfc.toByte oid 4 ++ o.sk) ++ tail)
        stdout := o.sm.take o.smlen }) := by
  intro ts
  induction ts with
  | nil =>
    intro body os _ _ h
    cases os with
    | nil => rfl
    | cons o os => simp [signAllFast] at h
  | cons t ts ih =>
    intro body os hb hos h
    rw [List.map_cons, signAllFast] at h
    obtain ⟨o1, e1, h⟩ := Option.bind_eq_some_iff.mp h
    obtain ⟨o2, e2, h⟩ := Option.bind_eq_some_iff.mp h
    cases os with
    | nil => simp at h
    | cons o os =>
      simp only [List.map_cons, Option.some.injEq, List.cons.injEq] at h
      obtain ⟨h1, h2⟩ := h
      subst h1 h2
      obtain ⟨ho1, ho2⟩ := hos o (by simp)
      have hrun := uiSignFast_eq (P := P) hpp hp t.junk t.smlen0 pkb body tail t.msg hpk hb (o := o) ho1 e1
      rw [if_pos ho2] at hrun
      have hrest := ih o.sk os ho1 (fun o ho => hos o (by simp [ho])) e2
      rw [toolRunsFast, hrun]
      simp only [Option.bind_eq_bind, Option.bind_some, hrest, List.map_cons]

/-- **C51 (tools linked with the fast implementation).**  For every name of the registry the key generation tool exits 0,
and any `2^h - 1` or fewer runs of the sign tool on the key file it wrote, each with its own message and whatever the
uninitialised memory contains, all exit 0, use the indices 0, 1, 2, ... and leave a key file with which the verification
tools of both builds accept their output.  (For 40/8 and 60/12: fewer than `2^20` runs; beyond, C33_fails.) -/
theorem C51_fast_tools (name : String) (hn : f.strToOid name = some oid) (hp : f.parseFast oid = some p)
    (junk seed : Nat → Bytes) (hj : Fresh junk) (hs : (seed p.n).length = 3 * p.n) :
    ∃ file, uiKeypairFast P f junk seed [name] = some { exit := 0, stdout := file } ∧
      file.length = 4 + p.pk_bytes + (4 + p.sk_bytes) ∧
      ∀ ts : List ToolRun, (∀ t ∈ ts, Fresh t.junk ∧ p.sig_bytes + t.msg.length < 2 ^ 64) →
        ts.length ≤ 2 ^ p.full_height - 1 →
        (p.d ≤ p.tree_height / 2 + 2 ∨ ts.length < 2 ^ (p.tree_height * (p.tree_height / 2 + 2))) →
        ∃ rs, toolRunsFast P f (some file) ts = some rs ∧ rs.length = ts.length ∧
          ∀ j t r, ts[j]? = some t → rs[j]? = some r → GoodRun P f p file j t r := by
  obtain ⟨H, hH, hHl⟩ := Family.hashFast (P := P) hp
  obtain ⟨g, hskb, ho, _⟩ := parseFast_good hp
  obtain ⟨k, hv, hh, _, sk, hskl, ek, hist⟩ := fast_history hp hH (junk (4 + p.pk_bytes)) (junk (4 + p.sk_bytes)) (hj _) (hj _) seed hs
  -- the parameters of the simple build differ in `sk_bytes` only
  obtain ⟨ps, hps⟩ : ∃ ps, f.parse oid = some ps := by
    cases f with
    | xmss =>
      apply Option.isSome_iff_exists.mp
      show (xmssParseOid slowSkBytes oid).isSome
      rw [C02_xmss_oids slowSkBytes oid, ← C02_xmss_oids fastSkBytes oid,
        show xmssParseOid fastSkBytes oid = some p from hp]; rfl
    | xmssmt =>
      apply Option.isSome_iff_exists.mp
      show (xmssmtParseOid slowSkBytes oid).isSome
      rw [C02_xmssmt_oids slowSkBytes oid, ← C02_xmssmt_oids fastSkBytes oid,
        show xmssmtParseOid fastSkBytes oid = some p from hp]; rfl
  obtain ⟨pf', hpf', e⟩ := parse_both hps
  rw [hp] at hpf'
  cases hpf'
  have hHs : coreHash P ps.func ps.n = some H := by rw [e] at hH; exact hH
  have hS : suiteOf p H = suiteOf ps H := by rw [e]; rfl
  have en : p.n = ps.n := by rw [e]
  have esig : p.sig_bytes = ps.sig_bytes := by rw [e]
  have efh : p.full_height = ps.full_height := by rw [e]
  have hkl : (k.root ++ k.pubSeed).length = p.pk_bytes := by simp [hv.root, hv.pubSeed, g.pk_eq]; omega
  have hfile : uiKeypairFast P f junk seed [name] = some { exit := 0, stdout := k.pk oid ++ (Rfc.toByte oid 4 ++ sk) } := by
    rw [uiKeypairFast]
    simp only [hn, Option.getD_some, uiParseFast_eq, uiKeypairCallFast_eq, hp, show oidLen = 4 from rfl, ek,
      Option.bind_eq_bind, Option.bind_some]
  refine ⟨_, hfile, ?_, ?_⟩
  · simp only [Key.pk, List.length_append, toByte_length, hskl] at hkl ⊢; omega
  intro ts hts hlen hlim
  have hpos : 0 < 2 ^ p.full_height := Nat.two_pow_pos _
  obtain ⟨os, e1, l1, h1⟩ := hist (ts.map fun t => ⟨t.junk (p.sig_bytes + t.msg.length), t.smlen0, t.msg⟩)
    (by
      intro c hc
      obtain ⟨t, ht, rfl⟩ := List.mem_map.mp hc
      simp only [(hts t ht).1 _, le_refl])
    ⟨fun h => by rw [h] at hlen; simp only [List.length_map]; omega, by rw [List.length_map]; exact hlim⟩
  rw [List.length_map] at l1
  have post : ∀ j t, ts[j]? = some t → ∃ o, os[j]? = some o ∧ o.sk.length = p.sk_bytes ∧ o.smlen = p.sig_bytes + t.msg.length ∧
      o.sm = (suiteOf p H).sign k.skSeed k.skPrf k.root k.pubSeed j t.msg ++ t.msg ∧
      o.sk.take (p.index_bytes + 4 * p.n) = Rfc.toByte (j + 1) p.index_bytes ++ k.skSeed ++ k.skPrf ++ k.root ++ k.pubSeed := by
    intro j t ht
    have hjl : j < ts.length := (List.getElem?_eq_some_iff.mp ht).1
    obtain ⟨o, ho, po⟩ := h1 j _ (by rw [List.getElem?_map, ht]; rfl)
    obtain ⟨_, c2, c3, c4⟩ := po.ok (by omega)
    refine ⟨o, ho, po.size, c2, ?_, c4⟩
    rw [c3, List.drop_of_length_le (by rw [(hts t (List.mem_of_getElem? ht)).1]), List.append_nil]
  have hsl := fun j m => sign_length g hHl k.skSeed k.skPrf k.root k.pubSeed j m
  have hrun := toolRunsFast_eq (P := P) hp hp (k.root ++ k.pubSeed) [] hkl ts sk os hskl
    (by
      intro o ho
      obtain ⟨j, hj, rfl⟩ := List.mem_iff_getElem.mp ho
      obtain ⟨o', ho', s1, s2, s3, _⟩ := post j ts[j] (List.getElem?_eq_getElem (by omega))
      rw [List.getElem?_eq_getElem hj] at ho'
      cases ho'
      exact ⟨s1, by rw [s2, s3, List.length_append, hsl]⟩) e1
  rw [List.append_nil] at hrun
  refine ⟨_, hrun, by rw [List.length_map, l1], ?_⟩
  intro j t r ht hr
  obtain ⟨o, ho, s1, s2, s3, s4⟩ := post j t ht
  have hjl : j < ts.length := (List.getElem?_eq_some_iff.mp ht).1
  rw [List.getElem?_map, ho] at hr
  simp only [Option.map_some, Option.some.injEq, List.append_nil] at hr
  subst hr
  have hst : o.sm.take o.smlen = (suiteOf p H).sign k.skSeed k.skPrf k.root k.pubSeed j t.msg ++ t.msg := by
    rw [s3]; exact List.take_of_length_le (by rw [s2, List.length_append, hsl])
  have hpkl : (k.pk oid).length = 4 + p.pk_bytes := by rw [Key.pk, List.length_append, toByte_length, hkl]
  refine ⟨rfl, ⟨_, rfl, ?_, ?_, ?_, ?_⟩, ?_, ?_, ?_⟩
  · simp only [Key.pk, List.length_append, toByte_length, s1, hskl]
  · rw [show Rfc.toByte oid 4 ++ (k.root ++ k.pubSeed) = k.pk oid from rfl, List.take_left' hpkl, List.take_left' hpkl]
  · rw [show Rfc.toByte oid 4 ++ (k.root ++ k.pubSeed) ++ (Rfc.toByte oid 4 ++ o.sk) =
      (k.pk oid ++ Rfc.toByte oid 4) ++ o.sk by simp [Key.pk],
      List.drop_left' (by rw [List.length_append, hpkl, toByte_length])]
    have := congrArg (List.take p.index_bytes) s4
    rw [List.take_take, Nat.min_eq_left (by omega)] at this
    rw [this]
    simp only [List.append_assoc]
    exact List.take_left' (toByte_length _ _)
  · intro junk' hj'
    simp only [hst]
    rw [uiOpenFast_eq, and_self, show Rfc.toByte oid 4 ++ (k.root ++ k.pubSeed) = k.pk oid from rfl, hS]
    exact uiOpen_honest hps hHs junk' hj' k (by rw [← en]; exact hv.root) (by rw [← en]; exact hv.pubSeed)
      (by rw [← hS]; exact hh) _ t.msg (by rw [← efh]; omega) (by rw [← esig]; exact (hts t (List.mem_of_getElem? ht)).2)
  · simp only [hst, List.length_append, hsl]
  · simp only [hst, Rfc.Suite.sign, List.append_assoc]
    exact List.take_left' (toByte_length _ _)
  · simp only [hst]
    exact List.drop_left' (hsl _ _)

theorem toolRuns_eq (hp : f.parse oid = some p) (hH : coreHash P p.func p.n = some H) (k : Key) (hk : k.Valid p) :
    ∀ (ts : List ToolRun) (i : Nat), (∀ t ∈ ts, Fresh t.junk) → i + ts.length ≤ 2 ^ p.full_height - 1 →
    toolRuns P f (some (k.pk oid ++ k.sk p oid i)) ts = some (ts.mapIdx fun j t =>
      { exit := 0, keyFile := some (k.pk oid ++ k.sk p oid (i + j + 1))
        stdout := (suiteOf p H).sign k.skSeed k.skPrf k.root k.pubSeed (i + j) t.msg ++ t.msg }) := by
  obtain ⟨g, hskb, ho, _⟩ := Family.facts (P := P) hp
  have hfit := g.idx_fits
  intro ts
  induction ts with
  | nil => intro i _ _; rfl
  | cons t ts ih =>
    intro i hts hlen
    rw [List.length_cons] at hlen
    obtain ⟨o, e1, e2, _⟩ := C41_updates_in_place (P := P) hp hp t.junk (hts t (by simp)) (k.root ++ k.pubSeed)
      (k.sk p oid i) [] t.msg (by simp [hk.root, hk.pubSeed, g.pk_eq]; omega) (Key.sk_length hk hskb oid i) (Key.sk_take k p oid i)
    have hc := sign_call hp hH k hk i (by omega) (t.junk (p.sig_bytes + t.msg.length)) 0 t.msg (by rw [hts t (by simp)])
    rw [e1] at hc
    have hc := Option.some.inj hc
    have hsk : o.sk = k.sk p oid (i + 1) := by
      rw [hc]; simp only [nextKey, nextIdx, if_pos (show i < 2 ^ p.full_height - 1 by omega)]
    have hsm : o.sm = (suiteOf p H).sign k.skSeed k.skPrf k.root k.pubSeed i t.msg ++ t.msg := by
      rw [hc]
      simp only [if_pos (show i < 2 ^ p.full_height - 1 by omega)]
      rw [List.drop_of_length_le (by rw [hts t (by simp)]), List.append_nil]
    have hrest := ih (i + 1) (fun t ht => hts t (by simp [ht])) (by omega)
    simp only [List.append_nil] at e2
    rw [show Rfc.toByte oid 4 ++ (k.root ++ k.pubSeed) = k.pk oid from rfl, hsk, hsm] at e2
    rw [toolRuns, e2]
    simp only [Option.bind_eq_bind, Option.bind_some, hrest, List.mapIdx_cons, Nat.add_zero]
    simp only [show ∀ j, i + 1 + j = i + (j + 1) from fun j => by omega]

/-- **C51 (tools linked with the simple implementation).** -/
theorem C51_simple_tools (name : String) (hn : f.strToOid name = some oid) (hp : f.parse oid = some p)
    (junk seed : Nat → Bytes) (hj : Fresh junk) (hs : (seed p.n).length = 3 * p.n) :
    ∃ file, uiKeypair P f junk seed [name] = some { exit := 0, stdout := file } ∧
      file.length = 4 + p.pk_bytes + (4 + p.sk_bytes) ∧
      ∀ ts : List ToolRun, (∀ t ∈ ts, Fresh t.junk ∧ p.sig_bytes + t.msg.length < 2 ^ 64) →
        ts.length ≤ 2 ^ p.full_height - 1 →
        ∃ rs, toolRuns P f (some file) ts = some rs ∧ rs.length = ts.length ∧
          ∀ j t r, ts[j]? = some t → rs[j]? = some r → GoodRun P f p file j t r := by
  obtain ⟨g, hskb, ho, H, hH⟩ := Family.facts (P := P) hp
  have hHl := Family.hash_length hp hH
  obtain ⟨k, hk, hh, _, hkp⟩ := keypair_key hp hH (junk (4 + p.pk_bytes)) (junk (4 + p.sk_bytes)) (hj _) (hj _) seed hs
  have hpkl : (k.pk oid).length = 4 + p.pk_bytes := by
    simp [Key.pk, toByte_length, hk.root, hk.pubSeed, g.pk_eq]; omega
  refine ⟨k.pk oid ++ k.sk p oid 0, ?_, by rw [List.length_append, hpkl, Key.sk_length hk hskb], ?_⟩
  · rw [uiKeypair]
    simp only [hn, Option.getD_some, hp, show oidLen = 4 from rfl, hkp, Option.bind_eq_bind, Option.bind_some]
  intro ts hts hlen
  refine ⟨_, toolRuns_eq hp hH k hk ts 0 (fun t ht => (hts t ht).1) (by omega), by simp, ?_⟩
  intro j t r ht hr
  have hjl : j < ts.length := (List.getElem?_eq_some_iff.mp ht).1
  have hsl := fun j m => sign_length g hHl k.skSeed k.skPrf k.root k.pubSeed j m
  rw [List.getElem?_mapIdx, ht] at hr
  simp only [Option.map_some, Option.some.injEq, Nat.zero_add] at hr
  subst hr
  refine ⟨rfl, ⟨_, rfl, ?_, ?_, ?_, ?_⟩, ?_, ?_, ?_⟩
  · simp only [List.length_append, Key.sk_length hk hskb]
  · rw [List.take_left' hpkl, List.take_left' hpkl]
  · rw [Key.sk, ← List.append_assoc, List.drop_left' (by rw [List.length_append, hpkl, toByte_length])]
    simp only [List.append_assoc]
    exact List.take_left' (toByte_length _ _)
  · intro junk' hj'
    rw [uiOpenFast_eq, and_self]
    exact uiOpen_honest hp hH junk' hj' k hk.root hk.pubSeed hh _ t.msg (by omega) (hts t (List.mem_of_getElem? ht)).2
  · simp only [List.length_append, hsl]
  · simp only [Rfc.Suite.sign, List.append_assoc]
    exact List.take_left' (toByte_length _ _)
  · exact List.drop_left' (hsl _ _)

/-! ### The hypotheses can be met -/

-- XMSSMT-SHA2_20/2_256 with the fast tools: key generation and two runs that sign different messages.
example (P : Prims) : ∃ file rs, uiKeypairFast P .xmssmt (fun k => List.replicate k 7) (fun n => List.replicate (3 * n) 1)
      ["XMSSMT-SHA2_20/2_256"] = some { exit := 0, stdout := file } ∧
    toolRunsFast P .xmssmt (some file) [⟨fun k => List.replicate k 3, 12345, [1, 2]⟩, ⟨fun k => List.replicate k 9, 0, []⟩] = some rs ∧
    rs.length = 2 ∧ ∀ r ∈ rs, r.exit = 0 := by
  obtain ⟨p, hp, h1, h2, h3⟩ : ∃ p, Family.xmssmt.parseFast 1 = some p ∧ 2 ≤ 2 ^ p.full_height - 1 ∧
      p.d ≤ p.tree_height / 2 + 2 ∧ p.sig_bytes + 2 < 2 ^ 64 := ⟨_, rfl, by decide, by decide, by decide +kernel⟩
  obtain ⟨file, e, _, h⟩ := C51_fast_tools (P := P) (f := .xmssmt) "XMSSMT-SHA2_20/2_256" rfl hp (fun k => List.replicate k 7)
    (fun n => List.replicate (3 * n) 1) (fun k => by simp) (by simp)
  obtain ⟨rs, e2, l, g⟩ := h [⟨fun k => List.replicate k 3, 12345, [1, 2]⟩, ⟨fun k => List.replicate k 9, 0, []⟩]
    (by
      intro t ht
      simp only [List.mem_cons, List.not_mem_nil, or_false] at ht
      rcases ht with rfl | rfl
      · exact ⟨fun k => by simp, h3⟩
      · exact ⟨fun k => by simp, by simp only [List.length_nil]; omega⟩) h1 (Or.inl h2)
  refine ⟨file, rs, e, e2, l, ?_⟩
  intro r hr
  obtain ⟨j, hj, rfl⟩ := List.mem_iff_getElem.mp hr
  exact (g j _ _ (List.getElem?_eq_getElem (by omega)) (List.getElem?_eq_getElem hj)).exit

-- An exhausted key file of XMSS-SHA2_10_256 for the fast tool: index 2^32 - 1, everything else zero.
example : ∃ p, Family.xmss.parseFast 1 = some p ∧ ∃ ib rest : Bytes, ib.length = p.index_bytes ∧
    p.index_bytes + rest.length = p.sk_bytes ∧ 2 ^ p.full_height ≤ Rfc.toNat ib := by
  obtain ⟨p, hp, h1, h2, h3⟩ : ∃ p, Family.xmss.parseFast 1 = some p ∧ p.index_bytes = 4 ∧ p.full_height = 10 ∧ 4 ≤ p.sk_bytes :=
    ⟨_, rfl, by decide, by decide, by decide +kernel⟩
  exact ⟨p, hp, List.replicate 4 0xFF, List.replicate (p.sk_bytes - 4) 0, by rw [h1]; rfl, by rw [h1]; simp; omega,
    by rw [h2]; decide +kernel⟩

end Xmss
