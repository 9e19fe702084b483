import Verif.Proof.Treehash
/-
The flat-buffer functions compute the RFC's keys, signatures and verification.
-/
namespace Xmss

variable {H : Bytes → Bytes} {p : Params}

theorem chunks_eq_blocks (n k : Nat) (b : Bytes) : chunks n k b = Rfc.blocks n k b := by
  induction k generalizing b with
  | zero => rfl
  | succ k ih =>
    rw [chunks, ih]
    simp only [Rfc.blocks, List.range_succ_eq_map, List.map_cons, List.map_map, List.drop_drop]
    congr 1
    · simp
    · apply List.map_congr_left
      intro i _
      simp only [Function.comp]
      congr 2
      rw [Nat.succ_eq_add_one]; ring

theorem chunks_length (n k : Nat) (b : Bytes) : (chunks n k b).length = k := by
  rw [chunks_eq_blocks]; simp [Rfc.blocks]

theorem chunks_mem_length {n k : Nat} {b : Bytes} (hb : b.length = k * n) : ∀ x ∈ chunks n k b, x.length = n := by
  intro x hx
  rw [chunks_eq_blocks, Rfc.blocks, List.mem_map] at hx
  obtain ⟨i, hi, rfl⟩ := hx
  have hi := List.mem_range.mp hi
  have h1 : (i + 1) * n ≤ k * n := Nat.mul_le_mul_right _ hi
  rw [Nat.add_mul, one_mul] at h1
  simp; omega

theorem flatten_length_of {n : Nat} {l : List Bytes} (h : ∀ x ∈ l, x.length = n) : l.flatten.length = l.length * n := by
  induction l with
  | nil => simp
  | cons x l ih =>
    simp only [List.flatten_cons, List.length_append, List.length_cons, Nat.add_mul, one_mul]
    rw [h x (by simp), ih (fun y hy => h y (by simp [hy]))]; ring

theorem leafOf_eq (g : p.Good) (idx : Nat) : leafOf p idx = some (idx % 2 ^ p.tree_height) := by
  have := g.th_lt
  rw [leafOf, if_neg (by omega), Nat.shiftLeft_eq, one_mul, Nat.and_two_pow_sub_one_eq_mod]

theorem authPath_mem_length (g : p.Good) (hH : ∀ x, (H x).length = p.n) (sk seed : Bytes) (l t i : Nat) :
    ∀ x ∈ (suiteOf p H).authPath sk seed l t i, x.length = p.n := by
  intro x hx
  simp only [Rfc.Suite.authPath, List.mem_map] at hx
  obtain ⟨k, _, rfl⟩ := hx
  exact node_length g hH _ _ _ _ _ _

theorem authPath_length (g : p.Good) (sk seed : Bytes) (l t i : Nat) :
    ((suiteOf p H).authPath sk seed l t i).length = p.tree_height := by
  simp [Rfc.Suite.authPath, g.hp_eq]

theorem treeRoot_length (g : p.Good) (hH : ∀ x, (H x).length = p.n) (sk seed : Bytes) (l t : Nat) :
    ((suiteOf p H).treeRoot sk seed l t).length = p.n := node_length g hH _ _ _ _ _ _

theorem wotsSig_flat_length (g : p.Good) (hH : ∀ x, (H x).length = p.n) (sk seed M : Bytes) (l t i : Nat) :
    ((suiteOf p H).wotsSig sk seed M l t i).flatten.length = p.wots_len * p.n := by
  rw [flatten_length_of (wotsSig_mem_len (suiteOf p H) hH sk seed M l t i), wotsSig_len, g.len_eq']; rfl

theorem authPath_flat_length (g : p.Good) (hH : ∀ x, (H x).length = p.n) (sk seed : Bytes) (l t i : Nat) :
    ((suiteOf p H).authPath sk seed l t i).flatten.length = p.tree_height * p.n := by
  rw [flatten_length_of (authPath_mem_length g hH sk seed l t i), authPath_length g]

theorem signLayers_spec_length (g : p.Good) (hH : ∀ x, (H x).length = p.n) (skSeed pubSeed : Bytes) (k l idx : Nat)
    (M : Bytes) :
    ((suiteOf p H).signLayers skSeed pubSeed k l idx M).length = k * ((p.wots_len + p.tree_height) * p.n) := by
  induction k generalizing l idx M with
  | zero => simp [Rfc.Suite.signLayers]
  | succ k ih =>
    simp only [Rfc.Suite.signLayers, List.length_append, ih, wotsSig_flat_length g hH, authPath_flat_length g hH]
    ring

theorem signLayers_eq (g : p.Good) (hH : ∀ x, (H x).length = p.n) (skSeed pubSeed : Bytes) :
    ∀ (k i idx : Nat) (a : Addr) (M pre mid post : Bytes), a.a3 = UInt32.ofNat 0 → M.length = p.n →
      mid.length = k * ((p.wots_len + p.tree_height) * p.n) →
      signLayers H p skSeed pubSeed k i idx a M (pre ++ mid ++ post) pre.length =
        some (pre ++ (suiteOf p H).signLayers skSeed pubSeed k i idx M ++ post) := by
  intro k
  induction k with
  | zero =>
    intro i idx a M pre mid post _ _ hmid
    have : mid = [] := List.eq_nil_of_length_eq_zero (by simpa using hmid)
    subst this
    rfl
  | succ k ih =>
    intro i idx a M pre mid post ha hM hmid
    rw [signLayers, leafOf_eq g]
    simp only [Option.bind_eq_bind, Option.bind_some, Nat.shiftRight_eq_div_pow]
    set lf := idx % 2 ^ p.tree_height with hlf
    set tr := idx / 2 ^ p.tree_height with htr
    have hlt : lf < 2 ^ p.tree_height := Nat.mod_lt _ (Nat.two_pow_pos _)
    obtain ⟨w1, w2⟩ := wotsSign_eq (H := H) g (layer := i) (tree := tr) (ots := lf) skSeed pubSeed hM
      (setOtsAddr (setTreeAddr (setLayerAddr a i) tr) lf) ⟨rfl, rfl, rfl, ha, rfl⟩
    have hwl := wotsSig_flat_length g hH skSeed pubSeed M i tr lf
    have hal := authPath_flat_length g hH skSeed pubSeed i tr lf
    rw [w1]
    -- split the target area
    set B := (p.wots_len + p.tree_height) * p.n with hB
    have hBe : B = p.wots_len * p.n + p.tree_height * p.n := by rw [hB]; ring
    have hmid' : mid.length = B + k * B := by rw [hmid]; ring
    obtain ⟨m1, m2, m3, hm, h1, h2, h3⟩ : ∃ m1 m2 m3 : Bytes, mid = m1 ++ m2 ++ m3 ∧ m1.length = p.wots_len * p.n ∧
        m2.length = p.tree_height * p.n ∧ m3.length = k * B := by
      refine ⟨_, _, _, split3 mid (p.wots_len * p.n) (p.tree_height * p.n), ?_, ?_, ?_⟩ <;> simp <;> omega
    subst hm
    have e1 : pre ++ (m1 ++ m2 ++ m3) ++ post = pre ++ m1 ++ (m2 ++ m3 ++ post) := by simp
    rw [e1, wr_append pre m1 (m2 ++ m3 ++ post) _ rfl (by rw [hwl, h1])]
    simp only [Option.bind_some]
    set W := ((suiteOf p H).wotsSig skSeed pubSeed M i tr lf).flatten with hW
    set A := ((suiteOf p H).authPath skSeed pubSeed i tr lf).flatten with hA
    have e2 : pre ++ W ++ (m2 ++ m3 ++ post) = (pre ++ W) ++ m2 ++ (m3 ++ post) := by simp
    have hoff : pre.length + p.wots_sig_bytes = (pre ++ W).length := by rw [g.sig_wots]; simp [hwl]
    rw [hoff, e2, rd_append (pre ++ W) m2 (m3 ++ post) rfl h2.symm]
    simp only [Option.bind_some]
    rw [treehash_eq g hH skSeed pubSeed hlt _ _ w2.h0 w2.h1 w2.h2 (chunks_length _ _ _)]
    simp only [Option.bind_some]
    rw [wr_append (pre ++ W) m2 (m3 ++ post) _ rfl (by rw [hal, h2])]
    simp only [Option.bind_some]
    have e3 : pre ++ W ++ A ++ (m3 ++ post) = (pre ++ W ++ A) ++ m3 ++ post := by simp
    have hoff2 : (pre ++ W).length + p.tree_height * p.n = (pre ++ W ++ A).length := by simp [hal]; omega
    rw [hoff2, e3, ih (i + 1) tr _ _ (pre ++ W ++ A) m3 post w2.h3 (treeRoot_length g hH _ _ _ _) h3]
    simp only [Rfc.Suite.signLayers, g.hp_eq, List.append_assoc]
    rfl

theorem hashMessage_eq (R root : Bytes) (hR : R.length = p.n) (hroot : root.length = p.n) (idx : Nat)
    (pre mid msg post : Bytes) (hmid : mid.length = p.padding_len + 3 * p.n) {off mlen : Nat} (ho : off = pre.length)
    (hm : mlen = msg.length) :
    hashMessage H p R root idx (pre ++ mid ++ msg ++ post) off mlen =
      some ((suiteOf p H).digest R root idx msg,
        pre ++ (Rfc.toByte 2 p.padding_len ++ R ++ root ++ Rfc.toByte idx p.n) ++ msg ++ post) := by
  subst ho hm
  obtain ⟨a, b, c, d, rfl, ha, hb, hc, hd⟩ : ∃ a b c d : Bytes, mid = a ++ b ++ c ++ d ∧ a.length = p.padding_len ∧
      b.length = p.n ∧ c.length = p.n ∧ d.length = p.n := by
    refine ⟨mid.take p.padding_len, (mid.drop p.padding_len).take p.n, (mid.drop (p.padding_len + p.n)).take p.n,
      mid.drop (p.padding_len + p.n + p.n), ?_, ?_, ?_, ?_, ?_⟩
    · conv_lhs => rw [split3 mid (p.padding_len + p.n) p.n]
      rw [List.take_add]
    all_goals simp; omega
  have hA : ullToBytes p.padding_len padHash = Rfc.toByte 2 p.padding_len := by rw [ullToBytes_eq]; rfl
  have hD : ullToBytes p.n idx = Rfc.toByte idx p.n := ullToBytes_eq _ _
  rw [hashMessage, hA, hD]
  set A := Rfc.toByte 2 p.padding_len with hAd
  set D := Rfc.toByte idx p.n with hDd
  have hAl : A.length = p.padding_len := toByte_length _ _
  have hDl : D.length = p.n := toByte_length _ _
  have e1 : pre ++ (a ++ b ++ c ++ d) ++ msg ++ post = pre ++ a ++ (b ++ c ++ d ++ msg ++ post) := by simp
  rw [e1, wr_append pre a _ A rfl (by omega)]
  simp only [Option.bind_eq_bind, Option.bind_some]
  have e2 : pre ++ A ++ (b ++ c ++ d ++ msg ++ post) = (pre ++ A) ++ b ++ (c ++ d ++ msg ++ post) := by simp
  rw [e2, wr_append (pre ++ A) b _ R (by simp [hAl]) (by omega)]
  simp only [Option.bind_some]
  have e3 : pre ++ A ++ R ++ (c ++ d ++ msg ++ post) = (pre ++ A ++ R) ++ c ++ (d ++ msg ++ post) := by simp
  rw [e3, wr_append (pre ++ A ++ R) c _ root (by simp [hAl, hR]; omega) (by omega)]
  simp only [Option.bind_some]
  have e4 : pre ++ A ++ R ++ root ++ (d ++ msg ++ post) = (pre ++ A ++ R ++ root) ++ d ++ (msg ++ post) := by simp
  rw [e4, wr_append (pre ++ A ++ R ++ root) d _ D (by simp [hAl, hR, hroot]; omega) (by omega)]
  simp only [Option.bind_some]
  have e5 : pre ++ A ++ R ++ root ++ D ++ (msg ++ post) = pre ++ (A ++ R ++ root ++ D ++ msg) ++ post := by simp
  rw [e5, rd_append pre _ post rfl (by simp [hAl, hR, hroot, hDl]; omega)]
  simp only [Option.bind_some, Option.some.injEq, Prod.mk.injEq]
  constructor
  · simp only [Rfc.Suite.digest, Rfc.Suite.Hmsg, suiteOf, List.append_assoc, hAd, hDd]
  · simp

theorem sign_length (g : p.Good) (hH : ∀ x, (H x).length = p.n) (skSeed skPrf root pubSeed : Bytes) (idx : Nat)
    (M : Bytes) : ((suiteOf p H).sign skSeed skPrf root pubSeed idx M).length = p.sig_bytes := by
  simp only [Rfc.Suite.sign, List.length_append, signLayers_spec_length g hH, toByte_length]
  have : ((suiteOf p H).PRF skPrf (Rfc.toByte idx 32)).length = p.n := hH _
  rw [this]
  have h2 : (suiteOf p H).d = p.d := rfl
  have h3 : (suiteOf p H).idxLen = p.index_bytes := rfl
  rw [h2, h3, g.sig_eq']

/-- What `coreSignBody` produces: index bytes as found in `sk`, then the RFC signature computed with the seeds found
in `sk` and the index `idx`. -/
theorem coreSignBody_eq (g : p.Good) (hH : ∀ x, (H x).length = p.n) (ib skSeed skPrf root pubSeed rest sm0 m post : Bytes)
    (idx : Nat) (hib : ib.length = p.index_bytes) (h1 : skSeed.length = p.n) (h2 : skPrf.length = p.n)
    (h3 : root.length = p.n) (h4 : pubSeed.length = p.n) (hsm : sm0.length = p.sig_bytes) :
    coreSignBody H p (ib ++ skSeed ++ skPrf ++ root ++ pubSeed ++ rest) (sm0 ++ m ++ post) m.length idx =
      some { ret := 0
             sk := Rfc.toByte (idx + 1) p.index_bytes ++ skSeed ++ skPrf ++ root ++ pubSeed ++ rest
             sm := ib ++ ((suiteOf p H).sign skSeed skPrf root pubSeed idx m).drop p.index_bytes ++ m ++ post
             smlen := p.sig_bytes + m.length } := by
  have hfit := g.prefix_fits
  rw [coreSignBody]
  have e1 : ib ++ skSeed ++ skPrf ++ root ++ pubSeed ++ rest =
      [] ++ ib ++ (skSeed ++ skPrf ++ root ++ pubSeed ++ rest) := by simp
  rw [e1, rd_append [] ib _ (off := 0) rfl hib.symm]
  simp only [Option.bind_eq_bind, Option.bind_some]
  -- split sm0
  obtain ⟨a, b, c, d, rfl, ha, hb, hc, hd⟩ : ∃ a b c d : Bytes, sm0 = a ++ b ++ c ++ d ∧ a.length = p.index_bytes ∧
      b.length = p.n ∧ c.length = p.sig_bytes - (p.index_bytes + p.n) - (p.padding_len + 3 * p.n) ∧
      d.length = p.padding_len + 3 * p.n := by
    refine ⟨sm0.take p.index_bytes, (sm0.drop p.index_bytes).take p.n,
      (sm0.drop (p.index_bytes + p.n)).take (p.sig_bytes - (p.index_bytes + p.n) - (p.padding_len + 3 * p.n)),
      sm0.drop (p.index_bytes + p.n + (p.sig_bytes - (p.index_bytes + p.n) - (p.padding_len + 3 * p.n))),
      ?_, ?_, ?_, ?_, ?_⟩
    · conv_lhs => rw [split3 sm0 (p.index_bytes + p.n)
        (p.sig_bytes - (p.index_bytes + p.n) - (p.padding_len + 3 * p.n))]
      rw [List.take_add]
    all_goals simp; omega
  have s1 : a ++ b ++ c ++ d ++ m ++ post = [] ++ a ++ (b ++ c ++ d ++ m ++ post) := by simp
  rw [s1, wr_append [] a _ ib (off := 0) rfl (by omega)]
  simp only [Option.bind_some]
  rw [wr_append [] ib _ _ (off := 0) rfl (by rw [ullToBytes_length, hib]), ullToBytes_eq]
  simp only [Option.bind_some]
  set I := Rfc.toByte (idx + 1) p.index_bytes with hI
  have hIl : I.length = p.index_bytes := toByte_length _ _
  have k1 : [] ++ I ++ (skSeed ++ skPrf ++ root ++ pubSeed ++ rest) =
      I ++ skSeed ++ (skPrf ++ root ++ pubSeed ++ rest) := by simp
  have k2 : [] ++ I ++ (skSeed ++ skPrf ++ root ++ pubSeed ++ rest) =
      (I ++ skSeed) ++ skPrf ++ (root ++ pubSeed ++ rest) := by simp
  have k3 : [] ++ I ++ (skSeed ++ skPrf ++ root ++ pubSeed ++ rest) =
      (I ++ skSeed ++ skPrf) ++ root ++ (pubSeed ++ rest) := by simp
  have k4 : [] ++ I ++ (skSeed ++ skPrf ++ root ++ pubSeed ++ rest) =
      (I ++ skSeed ++ skPrf ++ root) ++ pubSeed ++ rest := by simp
  have r1 : rd ([] ++ I ++ (skSeed ++ skPrf ++ root ++ pubSeed ++ rest)) p.index_bytes p.n = some skSeed := by
    rw [k1]; exact rd_append _ _ _ hIl.symm h1.symm
  have r2 : rd ([] ++ I ++ (skSeed ++ skPrf ++ root ++ pubSeed ++ rest)) (p.index_bytes + p.n) p.n = some skPrf := by
    rw [k2]; exact rd_append _ _ _ (by simp [hIl, h1]) h2.symm
  have r3 : rd ([] ++ I ++ (skSeed ++ skPrf ++ root ++ pubSeed ++ rest)) (p.index_bytes + 2 * p.n) p.n = some root := by
    rw [k3]; exact rd_append _ _ _ (by simp [hIl, h1, h2]; omega) h3.symm
  have r4 : rd ([] ++ I ++ (skSeed ++ skPrf ++ root ++ pubSeed ++ rest)) (p.index_bytes + 3 * p.n) p.n =
      some pubSeed := by
    rw [k4]; exact rd_append _ _ _ (by simp [hIl, h1, h2, h3]; omega) h4.symm
  rw [r1, r2, r3, r4]
  simp only [Option.bind_some]
  rw [prf_eq, ullToBytes_eq]
  set R := (suiteOf p H).PRF skPrf (Rfc.toByte idx 32) with hR
  have hRl : R.length = p.n := hH _
  have s2 : [] ++ ib ++ (b ++ c ++ d ++ m ++ post) = ib ++ b ++ (c ++ d ++ m ++ post) := by simp
  rw [s2, wr_append ib b _ R hib.symm (by omega)]
  simp only [Option.bind_some]
  rw [rd_append ib R _ hib.symm hRl.symm]
  simp only [Option.bind_some]
  rw [if_neg (by omega)]
  have s3 : ib ++ R ++ (c ++ d ++ m ++ post) = (ib ++ R ++ c) ++ d ++ m ++ post := by simp
  rw [s3, hashMessage_eq R root hRl h3 idx (ib ++ R ++ c) d m post hd
    (by simp only [List.length_append]; omega) rfl]
  simp only [Option.bind_some]
  set D := Rfc.toByte 2 p.padding_len ++ R ++ root ++ Rfc.toByte idx p.n with hD
  have hDl : D.length = p.padding_len + 3 * p.n := by simp [hD, toByte_length, hRl, h3]; omega
  have s4 : ib ++ R ++ c ++ D ++ m ++ post = (ib ++ R) ++ (c ++ D) ++ (m ++ post) := by simp
  have hoff : p.index_bytes + p.n = (ib ++ R).length := by simp [hib, hRl]
  rw [s4, hoff, signLayers_eq g hH skSeed pubSeed p.d 0 idx _ ((suiteOf p H).digest R root idx m) (ib ++ R) (c ++ D) (m ++ post) rfl (hH _)
    (by have := g.sig_eq'; simp only [List.length_append]; omega)]
  simp only [Option.bind_some, Option.some.injEq, SignOut.mk.injEq, true_and, and_true]
  constructor
  · simp
  · simp only [Rfc.Suite.sign]
    rw [List.append_assoc (Rfc.toByte idx _), List.drop_append_of_le_length
      (by rw [toByte_length]; exact Nat.le_refl _), List.drop_of_length_le (by rw [toByte_length]; exact Nat.le_refl _)]
    simp only [List.nil_append, List.append_assoc]
    rfl

theorem wipeKey_eq (ib body : Bytes) (hib : ib.length = p.index_bytes) {l : Nat} (hb : body.length = l)
    (hl : p.sk_bytes = p.index_bytes + l) :
    wipeKey p (ib ++ body) = some (List.replicate p.index_bytes 0xFF ++ List.replicate l 0) := by
  rw [wipeKey]
  have e1 : ib ++ body = [] ++ ib ++ body := by simp
  rw [e1, wr_append [] ib body _ (off := 0) rfl (by simp [hib])]
  simp only [Option.bind_eq_bind, Option.bind_some]
  have e2 : [] ++ List.replicate p.index_bytes (0xFF : UInt8) ++ body =
    List.replicate p.index_bytes (0xFF : UInt8) ++ body ++ [] := by simp
  rw [e2, wr_append _ body [] _ (by simp) (by simp [hb]; omega)]
  simp [hl]

/-- The three outcomes of the core signing function on a well formed key (`sk_bytes = index_bytes + 4n` for the simple
implementation). -/
theorem coreSign_eq (g : p.Good) (hsk : p.sk_bytes = p.index_bytes + 4 * p.n) (hH : ∀ x, (H x).length = p.n)
    (ib skSeed skPrf root pubSeed sm0 m old post : Bytes)
    (hib : ib.length = p.index_bytes) (h1 : skSeed.length = p.n) (h2 : skPrf.length = p.n)
    (h3 : root.length = p.n) (h4 : pubSeed.length = p.n) (hsm : sm0.length = p.sig_bytes) (hold : old.length = m.length) :
    coreSign H p (ib ++ skSeed ++ skPrf ++ root ++ pubSeed) (sm0 ++ old ++ post) m =
      some (if Rfc.toNat ib < 2 ^ p.full_height - 1 then
        { ret := 0
          sk := Rfc.toByte (Rfc.toNat ib + 1) p.index_bytes ++ skSeed ++ skPrf ++ root ++ pubSeed
          sm := (suiteOf p H).sign skSeed skPrf root pubSeed (Rfc.toNat ib) m ++ m ++ post
          smlen := p.sig_bytes + m.length }
      else if Rfc.toNat ib = 2 ^ p.full_height - 1 then
        let z : Bytes := List.replicate p.n 0
        { ret := 0
          sk := Rfc.toByte (Rfc.toNat ib + 1) p.index_bytes ++ z ++ z ++ z ++ z
          sm := List.replicate p.index_bytes 0xFF ++
            ((suiteOf p H).sign z z z z (2 ^ p.full_height - 1) m).drop p.index_bytes ++ m ++ post
          smlen := p.sig_bytes + m.length }
      else
        { ret := -2
          sk := List.replicate p.index_bytes 0xFF ++ List.replicate (4 * p.n) 0
          sm := sm0 ++ m ++ post
          smlen := p.sig_bytes + m.length }) := by
  have hfh := g.fh_lt
  rw [coreSign, wr_append sm0 old post m hsm.symm hold.symm]
  simp only [Option.bind_eq_bind, Option.bind_some]
  have e1 : ib ++ skSeed ++ skPrf ++ root ++ pubSeed = [] ++ ib ++ (skSeed ++ skPrf ++ root ++ pubSeed) := by simp
  have r0 : rd (ib ++ skSeed ++ skPrf ++ root ++ pubSeed) 0 p.index_bytes = some ib := by
    rw [e1]; exact rd_append _ _ _ rfl hib.symm
  rw [r0]
  simp only [Option.bind_some]
  rw [bytesToUll_eq (by rw [hib]; exact g.idx_le)]
  simp only [Option.bind_some]
  rw [if_neg (by omega)]
  by_cases hlt : Rfc.toNat ib < 2 ^ p.full_height - 1
  · rw [if_neg (by omega), if_pos hlt]
    simp only [Option.bind_some]
    rw [if_neg (by omega)]
    have := coreSignBody_eq g hH ib skSeed skPrf root pubSeed [] sm0 m post (Rfc.toNat ib) hib h1 h2 h3 h4 hsm
    simp only [List.append_nil] at this
    rw [this]
    congr 2
    congr 2
    have hs : (suiteOf p H).sign skSeed skPrf root pubSeed (Rfc.toNat ib) m =
      ((suiteOf p H).sign skSeed skPrf root pubSeed (Rfc.toNat ib) m).take p.index_bytes ++
      ((suiteOf p H).sign skSeed skPrf root pubSeed (Rfc.toNat ib) m).drop p.index_bytes :=
        (List.take_append_drop _ _).symm
    conv_rhs => rw [hs]
    congr 1
    simp only [Rfc.Suite.sign]
    rw [List.append_assoc, List.take_append_of_le_length (by rw [toByte_length]; exact Nat.le_refl _)]
    have : (suiteOf p H).idxLen = ib.length := hib.symm
    rw [this, toByte_toNat, List.take_of_length_le (by omega)]
  · rw [if_pos (by omega), if_neg hlt]
    have e2 : ib ++ skSeed ++ skPrf ++ root ++ pubSeed = ib ++ (skSeed ++ skPrf ++ root ++ pubSeed) := by simp
    rw [e2, wipeKey_eq ib _ hib (l := 4 * p.n) (by simp [h1, h2, h3, h4]; omega) hsk]
    simp only [Option.bind_some]
    by_cases heq : Rfc.toNat ib = 2 ^ p.full_height - 1
    · rw [if_neg (by omega), if_pos heq, heq]
      set z : Bytes := List.replicate p.n 0 with hz
      have hzl : z.length = p.n := by simp [hz]
      have e3 : List.replicate p.index_bytes (0xFF : UInt8) ++ List.replicate (4 * p.n) 0 =
          List.replicate p.index_bytes (0xFF : UInt8) ++ z ++ z ++ z ++ z ++ [] := by
        simp only [hz, List.append_assoc, List.append_nil, List.replicate_append_replicate]
        congr 2; ring
      rw [e3, coreSignBody_eq g hH (List.replicate p.index_bytes (0xFF : UInt8)) z z z z [] sm0 m post
        (2 ^ p.full_height - 1) (by simp) hzl hzl hzl hzl hsm]
      simp only [List.append_nil]
    · rw [if_pos (by omega), if_neg heq]

/-! ### Key generation -/

theorem coreSeedKeypair_eq (g : p.Good) (hH : ∀ x, (H x).length = p.n) (pk sk sA sB sC seedRest skRest pkRest : Bytes)
    (hpk : pk.length = 2 * p.n) (hsk : sk.length = p.index_bytes + 4 * p.n)
    (hA : sA.length = p.n) (hB : sB.length = p.n) (hC : sC.length = p.n) :
    coreSeedKeypair H p (pk ++ pkRest) (sk ++ skRest) (sA ++ sB ++ sC ++ seedRest) =
      some ((suiteOf p H).root sA sC ++ sC ++ pkRest,
        List.replicate p.index_bytes 0 ++ sA ++ sB ++ (suiteOf p H).root sA sC ++ sC ++ skRest) := by
  obtain ⟨k0, k1, k2, k3, k4, rfl, i0, i1, i2, i3, i4⟩ : ∃ k0 k1 k2 k3 k4 : Bytes, sk = k0 ++ k1 ++ k2 ++ k3 ++ k4 ∧
      k0.length = p.index_bytes ∧ k1.length = p.n ∧ k2.length = p.n ∧ k3.length = p.n ∧ k4.length = p.n := by
    refine ⟨sk.take p.index_bytes, (sk.drop p.index_bytes).take p.n, (sk.drop (p.index_bytes + p.n)).take p.n,
      (sk.drop (p.index_bytes + p.n + p.n)).take p.n, sk.drop (p.index_bytes + p.n + p.n + p.n), ?_, ?_, ?_, ?_, ?_, ?_⟩
    · conv_lhs => rw [split3 sk (p.index_bytes + p.n + p.n) p.n]
      rw [List.take_add, List.take_add]
    all_goals simp; omega
  obtain ⟨q0, q1, rfl, j0, j1⟩ : ∃ q0 q1 : Bytes, pk = q0 ++ q1 ∧ q0.length = p.n ∧ q1.length = p.n :=
    ⟨pk.take p.n, pk.drop p.n, (List.take_append_drop _ _).symm, by simp; omega, by simp; omega⟩
  rw [coreSeedKeypair]
  simp only [Option.bind_eq_bind]
  set Z : Bytes := List.replicate p.index_bytes 0 with hZ
  have hZl : Z.length = p.index_bytes := by simp [hZ]
  have w1 : wr (k0 ++ k1 ++ k2 ++ k3 ++ k4 ++ skRest) 0 Z = some (Z ++ k1 ++ k2 ++ k3 ++ k4 ++ skRest) := by
    have := wr_append [] k0 (k1 ++ k2 ++ k3 ++ k4 ++ skRest) Z (off := 0) rfl (by omega)
    simpa [List.append_assoc] using this
  have r1 : rd (sA ++ sB ++ sC ++ seedRest) 0 (2 * p.n) = some (sA ++ sB) := by
    have := rd_append [] (sA ++ sB) (sC ++ seedRest) (off := 0) (len := 2 * p.n) rfl (by simp [hA, hB]; omega)
    simpa [List.append_assoc] using this
  rw [w1, r1]
  simp only [Option.bind_some]
  have w2 : wr (Z ++ k1 ++ k2 ++ k3 ++ k4 ++ skRest) p.index_bytes (sA ++ sB) =
      some (Z ++ sA ++ sB ++ k3 ++ k4 ++ skRest) := by
    have := wr_append Z (k1 ++ k2) (k3 ++ k4 ++ skRest) (sA ++ sB) (off := p.index_bytes) hZl.symm (by simp; omega)
    simpa [List.append_assoc] using this
  have r2 : rd (sA ++ sB ++ sC ++ seedRest) (2 * p.n) p.n = some sC :=
    rd_append (sA ++ sB) sC seedRest (by simp [hA, hB]; omega) hC.symm
  rw [w2, r2]
  simp only [Option.bind_some]
  have w3 : wr (Z ++ sA ++ sB ++ k3 ++ k4 ++ skRest) (p.index_bytes + 3 * p.n) sC =
      some (Z ++ sA ++ sB ++ k3 ++ sC ++ skRest) :=
    wr_append (Z ++ sA ++ sB ++ k3) k4 skRest sC (by simp only [List.length_append]; omega) (by omega)
  rw [w3]
  simp only [Option.bind_some]
  have r3 : rd (Z ++ sA ++ sB ++ k3 ++ sC ++ skRest) (p.index_bytes + 3 * p.n) p.n = some sC :=
    rd_append (Z ++ sA ++ sB ++ k3) sC skRest (by simp only [List.length_append]; omega) hC.symm
  rw [r3]
  simp only [Option.bind_some]
  rw [wr_append q0 q1 pkRest sC j0.symm (by omega)]
  simp only [Option.bind_some]
  have r4 : rd (Z ++ sA ++ sB ++ k3 ++ sC ++ skRest) p.index_bytes p.n = some sA := by
    have := rd_append Z sA (sB ++ k3 ++ sC ++ skRest) (off := p.index_bytes) (len := p.n) hZl.symm hA.symm
    simpa [List.append_assoc] using this
  rw [r4, rd_append q0 sC pkRest j0.symm hC.symm]
  simp only [Option.bind_some]
  rw [treehash_eq g hH (layer := p.d - 1) (tree := 0) sA sC (Nat.two_pow_pos _) _ _ rfl rfl rfl (by simp)]
  simp only [Option.bind_some]
  set T := (suiteOf p H).treeRoot sA sC (p.d - 1) 0 with hT
  have hTl : T.length = p.n := node_length g hH _ _ _ _ _ _
  have w4 : wr (q0 ++ sC ++ pkRest) 0 T = some (T ++ sC ++ pkRest) := by
    have := wr_append [] q0 (sC ++ pkRest) T (off := 0) rfl (by omega)
    simpa [List.append_assoc] using this
  have r5 : rd (T ++ sC ++ pkRest) 0 p.n = some T := by
    have := rd_append [] T (sC ++ pkRest) (off := 0) (len := p.n) rfl hTl.symm
    simpa [List.append_assoc] using this
  rw [w4]
  simp only [Option.bind_some]
  rw [r5]
  simp only [Option.bind_some]
  have w5 : wr (Z ++ sA ++ sB ++ k3 ++ sC ++ skRest) (p.index_bytes + 2 * p.n) T =
      some (Z ++ sA ++ sB ++ T ++ sC ++ skRest) := by
    have := wr_append (Z ++ sA ++ sB) k3 (sC ++ skRest) T (off := p.index_bytes + 2 * p.n)
      (by simp only [List.length_append]; omega) (by omega)
    simpa [List.append_assoc] using this
  rw [w5]
  rfl

/-! ### Verification -/

theorem openLayers_eq (g : p.Good) (hH : ∀ x, (H x).length = p.n) (pubSeed : Bytes) :
    ∀ (k i idx : Nat) (oa la na : Addr) (M pre sig post : Bytes), oa.a3 = UInt32.ofNat 0 → la.a3 = UInt32.ofNat 1 →
      na.a3 = UInt32.ofNat 2 → na.a4 = UInt32.ofNat 0 → M.length = p.n →
      sig.length = k * ((p.wots_len + p.tree_height) * p.n) →
      openLayers H p pubSeed (pre ++ sig ++ post) k i idx oa la na M pre.length =
        some ((suiteOf p H).verifyLayers pubSeed k i idx M sig) ∧
      ((suiteOf p H).verifyLayers pubSeed k i idx M sig).length = p.n := by
  intro k
  induction k with
  | zero =>
    intro i idx oa la na M pre sig post _ _ _ _ hM _
    exact ⟨rfl, hM⟩
  | succ k ih =>
    intro i idx oa la na M pre sig post ho hl hn hn4 hM hsig
    rw [openLayers, leafOf_eq g]
    simp only [Option.bind_eq_bind, Option.bind_some, Nat.shiftRight_eq_div_pow]
    set lf := idx % 2 ^ p.tree_height with hlf
    set tr := idx / 2 ^ p.tree_height with htr
    set B := (p.wots_len + p.tree_height) * p.n with hB
    have hBe : B = p.wots_len * p.n + p.tree_height * p.n := by rw [hB]; ring
    have hsig' : sig.length = B + k * B := by rw [hsig]; ring
    obtain ⟨m1, m2, m3, hm, h1, h2, h3⟩ : ∃ m1 m2 m3 : Bytes, sig = m1 ++ m2 ++ m3 ∧ m1.length = p.wots_len * p.n ∧
        m2.length = p.tree_height * p.n ∧ m3.length = k * B := by
      refine ⟨_, _, _, split3 sig (p.wots_len * p.n) (p.tree_height * p.n), ?_, ?_, ?_⟩ <;> simp <;> omega
    subst hm
    have e1 : pre ++ (m1 ++ m2 ++ m3) ++ post = pre ++ m1 ++ (m2 ++ m3 ++ post) := by simp
    have e2 : pre ++ (m1 ++ m2 ++ m3) ++ post = (pre ++ m1) ++ m2 ++ (m3 ++ post) := by simp
    have e3 : pre ++ (m1 ++ m2 ++ m3) ++ post = (pre ++ m1 ++ m2) ++ m3 ++ post := by simp
    have r1 : rd (pre ++ (m1 ++ m2 ++ m3) ++ post) pre.length (p.wots_len * p.n) = some m1 := by
      rw [e1]; exact rd_append _ _ _ rfl h1.symm
    have r2 : rd (pre ++ (m1 ++ m2 ++ m3) ++ post) (pre.length + p.wots_sig_bytes) (p.tree_height * p.n) = some m2 := by
      rw [e2]; exact rd_append _ _ _ (by rw [g.sig_wots]; simp [h1]) h2.symm
    rw [r1, r2]
    simp only [Option.bind_some]
    obtain ⟨w1, w2⟩ := wotsPkFromSig_eq (H := H) g (layer := i) (tree := tr) (ots := lf) pubSeed hM
      (sig := chunks p.n p.wots_len m1) (chunks_length _ _ _)
      (setOtsAddr (setTreeAddr (setLayerAddr oa i) tr) lf) ⟨rfl, rfl, rfl, ho, rfl⟩
    rw [w1]
    have hSlen : (suiteOf p H).len = p.wots_len := g.len_eq' H
    obtain ⟨l1, l2, l3⟩ := lTree_eq g hH (layer := i) (tree := tr) (lt := lf) pubSeed
      (nodes := (suiteOf p H).wotsPkFromSig pubSeed M (chunks p.n p.wots_len m1) i tr lf)
      (setLtreeAddr (setTreeAddr (setLayerAddr la i) tr) lf) ⟨rfl, rfl, rfl, hl, rfl⟩
      (by rw [wotsPkFromSig_len, hSlen])
      (wotsPkFromSig_mem_len (suiteOf p H) hH pubSeed M (by rw [chunks_length, hSlen]) (chunks_mem_length h1) i tr lf)
    have hthp := g.th_pos
    obtain ⟨nd', c1, c2, c3⟩ := computeRoot_eq (H := H) (p := p) hH (layer := i) (tree := tr) pubSeed
      (auth := chunks p.n p.tree_height m2) lf
      (x := (lTree H p ((suiteOf p H).wotsPkFromSig pubSeed M (chunks p.n p.wots_len m1) i tr lf) pubSeed
        (setLtreeAddr (setTreeAddr (setLayerAddr la i) tr) lf)).1)
      (setTreeAddr (setLayerAddr na i) tr) ⟨rfl, rfl, rfl, hn, hn4⟩
      (by intro h; have := congrArg List.length h; rw [chunks_length] at this; simp at this; omega) l2
      (chunks_mem_length h2)
    rw [c1]
    simp only [Option.bind_some]
    have hoff : pre.length + p.wots_sig_bytes + p.tree_height * p.n = (pre ++ m1 ++ m2).length := by
      rw [g.sig_wots]; simp [h1, h2]; omega
    rw [hoff, e3]
    obtain ⟨v1, v2⟩ := ih (i + 1) tr (wotsPkFromSig H p (chunks p.n p.wots_len m1) M pubSeed
      (setOtsAddr (setTreeAddr (setLayerAddr oa i) tr) lf)).2 (lTree H p
        ((suiteOf p H).wotsPkFromSig pubSeed M (chunks p.n p.wots_len m1) i tr lf) pubSeed
        (setLtreeAddr (setTreeAddr (setLayerAddr la i) tr) lf)).2 nd'
      ((suiteOf p H).climb pubSeed i tr 0 lf (lTree H p ((suiteOf p H).wotsPkFromSig pubSeed M
        (chunks p.n p.wots_len m1) i tr lf) pubSeed (setLtreeAddr (setTreeAddr (setLayerAddr la i) tr) lf)).1
        (chunks p.n p.tree_height m2))
      (pre ++ m1 ++ m2) m3 post w2.h3 l3.h3 c2.h3 c2.h4 c3 h3
    -- the spec's step
    have hspec : (suiteOf p H).verifyLayers pubSeed (k + 1) i idx M (m1 ++ m2 ++ m3) =
        (suiteOf p H).verifyLayers pubSeed k (i + 1) tr
          ((suiteOf p H).climb pubSeed i tr 0 lf (lTree H p ((suiteOf p H).wotsPkFromSig pubSeed M
            (chunks p.n p.wots_len m1) i tr lf) pubSeed (setLtreeAddr (setTreeAddr (setLayerAddr la i) tr) lf)).1
            (chunks p.n p.tree_height m2)) m3 := by
      rw [Rfc.Suite.verifyLayers]
      simp only [g.hp_eq, hSlen, Rfc.Suite.rootFromSig]
      have hn' : (suiteOf p H).n = p.n := rfl
      rw [hn']
      have b1 : Rfc.blocks p.n p.wots_len (m1 ++ m2 ++ m3) = chunks p.n p.wots_len m1 := by
        rw [chunks_eq_blocks]
        apply List.map_congr_left
        intro j hj
        have hj := List.mem_range.mp hj
        have hle : (j + 1) * p.n ≤ p.wots_len * p.n := Nat.mul_le_mul_right _ hj
        rw [Nat.add_mul, one_mul] at hle
        rw [List.append_assoc, List.drop_append_of_le_length (by omega),
          List.take_append_of_le_length (by simp; omega)]
      have b2 : Rfc.blocks p.n p.tree_height ((m1 ++ m2 ++ m3).drop (p.wots_len * p.n)) =
          chunks p.n p.tree_height m2 := by
        rw [List.append_assoc, List.drop_append_of_le_length (by omega),
          List.drop_of_length_le (by omega), List.nil_append, chunks_eq_blocks]
        apply List.map_congr_left
        intro j hj
        have hj := List.mem_range.mp hj
        have hle : (j + 1) * p.n ≤ p.tree_height * p.n := Nat.mul_le_mul_right _ hj
        rw [Nat.add_mul, one_mul] at hle
        rw [List.drop_append_of_le_length (by omega), List.take_append_of_le_length (by simp; omega)]
      have b3 : (m1 ++ m2 ++ m3).drop ((p.wots_len + p.tree_height) * p.n) = m3 := by
        rw [List.drop_append_of_le_length (by simp; omega), List.drop_of_length_le (by simp; omega),
          List.nil_append]
      rw [b1, b2, b3, l1]
    rw [hspec]
    exact ⟨v1, v2⟩

/-- Verification on a signed message that is long enough. -/
theorem coreSignOpen_eq (g : p.Good) (hH : ∀ x, (H x).length = p.n) (root pubSeed pkRest sig msg smRest m0 m1 : Bytes)
    (hr : root.length = p.n) (hps : pubSeed.length = p.n) (hsig : sig.length = p.sig_bytes)
    (hmsg : p.sig_bytes + msg.length < 2 ^ 64)
    (hm0 : m0.length = p.sig_bytes + msg.length) :
    ∃ mbuf : Bytes, mbuf.length = p.sig_bytes ∧
    mbuf = m0.take (p.sig_bytes - p.padding_len - 3 * p.n) ++ (Rfc.toByte 2 p.padding_len ++
      (sig.drop p.index_bytes).take p.n ++ root ++ Rfc.toByte (Rfc.toNat (sig.take p.index_bytes)) p.n) ∧
    coreSignOpen H p (m0 ++ m1) (sig ++ msg ++ smRest) (p.sig_bytes + msg.length) (root ++ pubSeed ++ pkRest) =
      some (if (suiteOf p H).verifyRoot root pubSeed msg sig = root then
        { ret := 0, m := msg ++ (mbuf ++ msg).drop msg.length ++ m1, mlen := msg.length }
      else
        { ret := -1, m := List.replicate msg.length 0 ++ (mbuf ++ msg).drop msg.length ++ m1, mlen := 0 }) := by
  have hfit := g.prefix_fits
  rw [coreSignOpen]
  simp only [Option.bind_eq_bind]
  have k1 : rd (root ++ pubSeed ++ pkRest) 0 p.n = some root := by
    have := rd_append [] root (pubSeed ++ pkRest) (off := 0) (len := p.n) rfl hr.symm
    simpa [List.append_assoc] using this
  have k2 : rd (root ++ pubSeed ++ pkRest) p.n p.n = some pubSeed := rd_append _ _ _ hr.symm hps.symm
  rw [k1, k2]
  simp only [Option.bind_some]
  have hml : (p.sig_bytes + msg.length + 2 ^ 64 - p.sig_bytes) % 2 ^ 64 = msg.length := by
    have : p.sig_bytes + msg.length + 2 ^ 64 - p.sig_bytes = msg.length + 2 ^ 64 := by omega
    rw [this, Nat.add_mod_right, Nat.mod_eq_of_lt (by omega)]
  rw [hml]
  -- split the signature
  obtain ⟨ib, R, body, rfl, hib, hR, hbody⟩ : ∃ ib R body : Bytes, sig = ib ++ R ++ body ∧ ib.length = p.index_bytes ∧
      R.length = p.n ∧ body.length = p.d * ((p.wots_len + p.tree_height) * p.n) := by
    have := g.sig_eq'
    refine ⟨_, _, _, split3 sig p.index_bytes p.n, ?_, ?_, ?_⟩ <;> simp <;> omega
  have r1 : rd (ib ++ R ++ body ++ msg ++ smRest) 0 p.index_bytes = some ib := by
    have := rd_append [] ib (R ++ body ++ msg ++ smRest) (off := 0) (len := p.index_bytes) rfl hib.symm
    simpa [List.append_assoc] using this
  have r2 : rd (ib ++ R ++ body ++ msg ++ smRest) p.sig_bytes msg.length = some msg :=
    rd_append (ib ++ R ++ body) msg smRest hsig.symm rfl
  have r3 : rd (ib ++ R ++ body ++ msg ++ smRest) p.index_bytes p.n = some R := by
    have := rd_append ib R (body ++ msg ++ smRest) (off := p.index_bytes) (len := p.n) hib.symm hR.symm
    simpa [List.append_assoc] using this
  rw [r1]
  simp only [Option.bind_some]
  rw [bytesToUll_eq (by rw [hib]; exact g.idx_le)]
  simp only [Option.bind_some]
  rw [r2]
  simp only [Option.bind_some]
  obtain ⟨a, b, c, rfl, ha, hb, hc⟩ : ∃ a b c : Bytes, m0 = a ++ b ++ c ∧
      a.length = p.sig_bytes - p.padding_len - 3 * p.n ∧
      b.length = p.padding_len + 3 * p.n ∧ c.length = msg.length := by
    refine ⟨_, _, _, split3 m0 (p.sig_bytes - p.padding_len - 3 * p.n) (p.padding_len + 3 * p.n), ?_, ?_, ?_⟩ <;>
      simp <;> omega
  rw [wr_append (a ++ b) c m1 msg (by simp only [List.length_append]; omega) hc.symm]
  simp only [Option.bind_some]
  rw [if_neg (by omega), r3]
  simp only [Option.bind_some]
  rw [hashMessage_eq R root hR hr (Rfc.toNat ib) a b msg m1 hb ha.symm rfl]
  simp only [Option.bind_some]
  set D := Rfc.toByte 2 p.padding_len ++ R ++ root ++ Rfc.toByte (Rfc.toNat ib) p.n with hD
  have hDl : D.length = p.padding_len + 3 * p.n := by simp [hD, toByte_length, hR, hr]; omega
  have e1 : ib ++ R ++ body ++ msg ++ smRest = (ib ++ R) ++ body ++ (msg ++ smRest) := by simp
  have hoff : p.index_bytes + p.n = (ib ++ R).length := by simp [hib, hR]
  obtain ⟨v1, v2⟩ := openLayers_eq g hH pubSeed p.d 0 (Rfc.toNat ib) (setType Addr.zero typeOts)
    (setType Addr.zero typeLtree) (setType Addr.zero typeHashtree) ((suiteOf p H).digest R root (Rfc.toNat ib) msg)
    (ib ++ R) body (msg ++ smRest) rfl rfl rfl rfl (hH _) hbody
  rw [e1, hoff, v1]
  simp only [Option.bind_some]
  have hvr : (suiteOf p H).verifyRoot root pubSeed msg (ib ++ R ++ body) =
      (suiteOf p H).verifyLayers pubSeed p.d 0 (Rfc.toNat ib) ((suiteOf p H).digest R root (Rfc.toNat ib) msg) body := by
    have hil : (suiteOf p H).idxLen = ib.length := hib.symm
    have hnl : (suiteOf p H).n = R.length := hR.symm
    rw [Rfc.Suite.verifyRoot, hil, hnl]
    simp only [List.append_assoc]
    rw [List.take_left, List.drop_left, List.take_left, ← List.append_assoc, ← List.length_append, List.drop_left]
    rfl
  rw [hvr]
  refine ⟨a ++ D, by simp only [List.length_append]; omega, ?_, ?_⟩
  · rw [hD, List.append_assoc a, List.take_left' ha, List.append_assoc ib, List.take_left' hib, List.drop_left' hib,
      List.take_left' hR]
  have hsplit : a ++ D ++ msg ++ m1 = [] ++ (a ++ D ++ msg).take msg.length ++ ((a ++ D ++ msg).drop msg.length ++ m1) := by
    generalize a ++ D ++ msg = X
    rw [List.nil_append, ← List.append_assoc, List.take_append_drop]
  have htl : ((a ++ D ++ msg).take msg.length).length = msg.length := by
    rw [List.length_take, List.length_append]; omega
  by_cases h : (suiteOf p H).verifyLayers pubSeed p.d 0 (Rfc.toNat ib)
      ((suiteOf p H).digest R root (Rfc.toNat ib) msg) body = root
  · rw [if_neg (by simpa using h), if_pos h, hsplit, ← e1]
    have r4 : rd (ib ++ R ++ body ++ msg ++ smRest)
        ((ib ++ R).length + p.d * (p.wots_sig_bytes + p.tree_height * p.n)) msg.length = some msg := by
      apply rd_append (ib ++ R ++ body) msg smRest _ rfl
      rw [List.length_append (as := ib ++ R), hbody, g.sig_wots]; ring
    rw [r4]
    simp only [Option.bind_some]
    rw [wr_append [] _ _ msg (off := 0) rfl htl.symm]
    simp
  · rw [if_pos (by simpa using h), if_neg h, hsplit]
    rw [wr_append [] _ _ _ (off := 0) rfl (by rw [htl, List.length_replicate])]
    simp

end Xmss
