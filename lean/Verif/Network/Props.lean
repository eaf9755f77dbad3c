import Verif.Network.Model
import Verif.Whole.Props
import Verif.Chain.PropsOwn
/-!
# Signatures belong to a network and a period

C151: what is signed for one network does not count on another. C152: a transaction is valid in the period it was signed for.
-/

namespace Verif.Network

/-! ## Specification -/

/-- A signature of a key is a signature of one message only. -/
def OneMessage (verify : Signature → AccountId → Bytes → Bool) (sig : Signature) (k : AccountId) : Prop :=
  ∀ m m', verify sig k m = true → verify sig k m' = true → m = m'

/-- The messages of two transactions on their networks have different hashes, if they differ; hashes have 32 bytes. -/
def Hashes (cfg cfg' : Config) (n n' : Net) (s s' : Sent) : Prop :=
  cfg'.hash = cfg.hash ∧ (∀ b, (cfg.hash b).length = 32) ∧
  ∀ a a', additional cfg n s.era = some a → additional cfg' n' s'.era = some a' →
    cfg.hash (s.chosen cfg ++ a) = cfg.hash (s'.chosen cfg' ++ a') → s.chosen cfg ++ a = s'.chosen cfg' ++ a'

/-- Block hashes have 32 bytes, versions four. -/
structure Net.Ok (n : Net) : Prop where
  hashes : ∀ h ∈ n.hashes, h.length = 32
  spec : n.spec < 2 ^ 32
  txVersion : n.txVersion < 2 ^ 32

/-- The hash of the genesis block. -/
def Net.genesis (n : Net) : Option Bytes := n.hashes[0]?

/-- An era that a transaction can have: the period is a power of two from 4 to 65536, the phase is below it and rounded. -/
def Era.Valid : Era → Prop
  | .immortal => True
  | .mortal period phase => ∃ k, 2 ≤ k ∧ k ≤ 16 ∧ period = 2 ^ k ∧ phase < period ∧ quantum period ∣ phase

/-- Some history of the network with this genesis block. -/
def Reached (cfg : Config) (genesis : Bytes) (n : Net) : Prop :=
  ∃ spec txVersion maxBytes ledger h, n = run cfg (start genesis spec txVersion maxBytes ledger) h

/-- What is signed takes effect on one network only: transactions, transactions of passkeys, and payloads that others
submit (here those of the msa pallet). -/
structure Apart (cfg cfg' : Config) (n n' : Net) : Prop where
  sent : ∀ s, OneMessage cfg.whole.verify s.sig s.tx.who → Hashes cfg cfg' n n' s s → apply cfg n (.sent s) ≠ n →
    apply cfg' n' (.sent s) = n'
  passkey : ∀ env fee p, apply cfg n (.passkey env fee p) ≠ n → apply cfg' n' (.passkey env fee p) = n'
  payload : ∀ bal k k' c, Msa.proofsOf c ≠ [] → Chain.Succeeds cfg.whole.wrapped.chain bal n.chain.world.chain k (.msa c) →
    ¬ Chain.Succeeds cfg'.whole.wrapped.chain bal n'.chain.world.chain k' (.msa c)

/-- C151 in full. The networks may have different runtimes, but verify signatures alike. -/
def C151_full : Prop :=
  ∀ (cfg cfg' : Config) (g g' : Bytes) (n n' : Net), cfg'.whole.verify = cfg.whole.verify →
    cfg'.whole.wrapped.chain.msa.verify = cfg.whole.wrapped.chain.msa.verify →
    (∀ sig k, OneMessage cfg.whole.verify sig k) → (∀ sig k, OneMessage cfg.whole.wrapped.chain.msa.verify sig k) →
    Reached cfg g n → Reached cfg' g' n' → n.Ok → n'.Ok → g ≠ g' → Apart cfg cfg' n n'

/-- The history contains no runtime upgrade. -/
def NoUpgrade (h : List Event) : Prop := ∀ spec tx known, .upgrade spec tx known ∉ h

/-- C152 in full: once accepted, a transaction is accepted in just those later blocks that are in its period. -/
def C152_full : Prop :=
  ∀ (cfg : Config) (g : Bytes) (n : Net) (s : Sent) (period phase : Nat), Reached cfg g n → s.era = .mortal period phase →
    s.era.Valid → accepts cfg n s = true → ∀ h, NoUpgrade h → (run cfg n h).Ok → (run cfg n h).hashes.Nodup →
    OneMessage cfg.whole.verify s.sig s.tx.who → Hashes cfg cfg n (run cfg n h) s s →
    (accepts cfg (run cfg n h) s = true ↔ (run cfg n h).now < s.era.birth n.now + period)

/-! ## Lemmas -/

theorem stored_mem {kept : Nat} {n : Net} {b : Nat} {h : Bytes} (e : stored kept n b = some h) : n.hashes[b]? = some h := by
  unfold stored at e
  split at e
  · exact e
  · simp at e

theorem additional_some {cfg : Config} {n : Net} {e : Era} {a : Bytes} (h : additional cfg n e = some a) :
    ∃ g b, n.hashes[0]? = some g ∧ stored cfg.kept n (e.birth n.now) = some b ∧
      a = Scale.u32 n.spec ++ (Scale.u32 n.txVersion ++ (g ++ b)) := by
  unfold additional at h
  cases h1 : stored cfg.kept n 0 with
  | none => rw [h1] at h; simp at h
  | some g =>
    rw [h1] at h
    cases h2 : stored cfg.kept n (e.birth n.now) with
    | none => rw [h2] at h; simp at h
    | some b =>
      rw [h2] at h
      exact ⟨g, b, stored_mem h1, rfl, (Option.some.inj h).symm⟩

theorem additional_length {cfg : Config} {n : Net} (hn : n.Ok) {e : Era} {a : Bytes} (h : additional cfg n e = some a) :
    a.length = 72 := by
  obtain ⟨g, b, h1, h2, rfl⟩ := additional_some h
  have := hn.hashes g (List.mem_of_getElem? h1)
  have := hn.hashes b (List.mem_of_getElem? (stored_mem h2))
  simp [Scale.u32, Scale.length_leBytes, *]

theorem accepts_some {cfg : Config} {n : Net} {s : Sent} (h : accepts cfg n s = true) :
    ∃ a, additional cfg n s.era = some a ∧ cfg.whole.verify s.sig s.tx.who (digest cfg (s.chosen cfg ++ a)) = true := by
  unfold accepts at h
  cases e : additional cfg n s.era with
  | none => rw [e] at h; simp at h
  | some a => rw [e] at h; exact ⟨a, rfl, h⟩

theorem refused {cfg : Config} {n : Net} {s : Sent} (h : accepts cfg n s = false) : apply cfg n (.sent s) = n := by
  show (if accepts cfg n s = true then _ else n) = n
  rw [h]
  rfl

/-- Two accepted transactions with the same signature have the same message. -/
theorem same_message {cfg cfg' : Config} {n n' : Net} {s s' : Sent} (hn : n.Ok) (hn' : n'.Ok)
    (hv : cfg'.whole.verify = cfg.whole.verify) (hs : s'.sig = s.sig) (hw : s'.tx.who = s.tx.who)
    (ho : OneMessage cfg.whole.verify s.sig s.tx.who) (hh : Hashes cfg cfg' n n' s s')
    (ha : accepts cfg n s = true) (ha' : accepts cfg' n' s' = true) :
    ∃ a a', additional cfg n s.era = some a ∧ additional cfg' n' s'.era = some a' ∧
      s.chosen cfg ++ a = s'.chosen cfg' ++ a' := by
  obtain ⟨a, e, v⟩ := accepts_some ha
  obtain ⟨a', e', v'⟩ := accepts_some ha'
  refine ⟨a, a', e, e', ?_⟩
  rw [hv, hs, hw] at v'
  have hd := ho _ _ v v'
  have l := additional_length hn e
  have l' := additional_length hn' e'
  obtain ⟨h1, h2, h3⟩ := hh
  unfold digest at hd
  rw [h1] at hd
  split at hd <;> split at hd
  · exact h3 a a' e e' hd
  · exfalso
    have := congrArg List.length hd
    rw [h2] at this
    simp only [List.length_append, l'] at this
    omega
  · exfalso
    have := congrArg List.length hd
    rw [h2] at this
    simp only [List.length_append, l] at this
    omega
  · exact hd

/-- What the extensions add is the same, too. -/
theorem same_network {cfg cfg' : Config} {n n' : Net} (hn : n.Ok) (hn' : n'.Ok) {e e' : Era} {c c' a a' : Bytes}
    (h : additional cfg n e = some a) (h' : additional cfg' n' e' = some a') (heq : c ++ a = c' ++ a') :
    c = c' ∧ n.genesis = n'.genesis ∧ n.spec = n'.spec ∧ n.txVersion = n'.txVersion ∧
      ∃ b, stored cfg.kept n (e.birth n.now) = some b ∧ stored cfg'.kept n' (e'.birth n'.now) = some b := by
  have hl : a.length = a'.length := by rw [additional_length hn h, additional_length hn' h']
  obtain ⟨hc, hp⟩ := List.append_inj' heq hl
  obtain ⟨g, b, h1, h2, rfl⟩ := additional_some h
  obtain ⟨g', b', h1', h2', rfl⟩ := additional_some h'
  obtain ⟨p1, hp⟩ := Scale.leBytes_append_inj (by have := hn.spec; omega) (by have := hn'.spec; omega) hp
  obtain ⟨p2, hp⟩ := Scale.leBytes_append_inj (by have := hn.txVersion; omega) (by have := hn'.txVersion; omega) hp
  have l1 := hn.hashes g (List.mem_of_getElem? h1)
  have l2 := hn'.hashes g' (List.mem_of_getElem? h1')
  obtain ⟨p3, p4⟩ := List.append_inj hp (by rw [l1, l2])
  subst p3 p4
  exact ⟨hc, by unfold Net.genesis; rw [h1, h1'], p1, p2, b, h2, h2'⟩

/-! ## C151 -/

/-- C151, transactions: on a network with another genesis block, or with a runtime of another version, or if the block where
its period begins is another one, a transaction that one network accepts has no effect. Missing: passkey transactions and
payloads, for which it is false (`C151_full_false`). -/
theorem C151_elsewhere_partial (cfg cfg' : Config) (n n' : Net) (s : Sent) (hn : n.Ok) (hn' : n'.Ok)
    (hv : cfg'.whole.verify = cfg.whole.verify) (ho : OneMessage cfg.whole.verify s.sig s.tx.who)
    (hh : Hashes cfg cfg' n n' s s) (ha : accepts cfg n s = true)
    (hd : n'.genesis ≠ n.genesis ∨ n'.spec ≠ n.spec ∨ n'.txVersion ≠ n.txVersion ∨
      n'.hashes[s.era.birth n'.now]? ≠ n.hashes[s.era.birth n.now]?) :
    accepts cfg' n' s = false ∧ apply cfg' n' (.sent s) = n' := by
  have hf : accepts cfg' n' s = false := by
    rw [← Bool.not_eq_true]
    intro ha'
    obtain ⟨a, a', e, e', hm⟩ := same_message hn hn' hv rfl rfl ho hh ha ha'
    obtain ⟨-, h1, h2, h3, b, h4, h5⟩ := same_network hn hn' e e' hm
    rcases hd with h | h | h | h
    · exact h h1.symm
    · exact h h2.symm
    · exact h h3.symm
    · exact h (by rw [stored_mem h4, stored_mem h5])
  exact ⟨hf, refused hf⟩

/-! ### Encodings -/

theorem bigLen_fits (n : Nat) : n < 256 ^ bigLen n := by
  have h1 : n < 2 ^ (n.log2 + 1) := Nat.lt_log2_self
  have h2 : n.log2 + 1 ≤ 8 * bigLen n := by unfold bigLen; omega
  calc n < 2 ^ (n.log2 + 1) := h1
    _ ≤ 2 ^ (8 * bigLen n) := Nat.pow_le_pow_right (by decide) h2
    _ = 256 ^ bigLen n := by rw [Nat.pow_mul]

theorem bigLen_bounds {n : Nat} (h : n < 2 ^ 128) : 4 ≤ bigLen n ∧ bigLen n ≤ 16 := by
  have : n.log2 < 128 := by
    by_cases h0 : n = 0
    · subst h0; decide
    · exact (Nat.log2_lt h0).2 h
  unfold bigLen; omega

theorem compact128_head {n : Nat} (h : n < 2 ^ 128) : ∃ b rest, compact128 n = b :: rest ∧
    ((n < 2 ^ 6 ∧ b.toNat % 4 = 0) ∨ (2 ^ 6 ≤ n ∧ n < 2 ^ 14 ∧ b.toNat % 4 = 1) ∨
     (2 ^ 14 ≤ n ∧ n < 2 ^ 30 ∧ b.toNat % 4 = 2) ∨ (2 ^ 30 ≤ n ∧ b.toNat = 3 + 4 * (bigLen n - 4))) := by
  unfold compact128
  split
  · refine ⟨_, _, rfl, Or.inl ⟨by assumption, ?_⟩⟩; simp
  split
  · refine ⟨_, _, rfl, Or.inr (Or.inl ⟨by omega, by assumption, ?_⟩)⟩; simp
  split
  · refine ⟨_, _, rfl, Or.inr (Or.inr (Or.inl ⟨by omega, by assumption, ?_⟩))⟩; simp
  · refine ⟨_, _, rfl, Or.inr (Or.inr (Or.inr ⟨by omega, ?_⟩))⟩
    have := bigLen_bounds h
    simp; omega

theorem compact128_inj {m n : Nat} (hm : m < 2 ^ 128) (hn : n < 2 ^ 128) {a b : Bytes}
    (h : compact128 m ++ a = compact128 n ++ b) : m = n ∧ a = b := by
  obtain ⟨b1, r1, e1, c1⟩ := compact128_head hm
  obtain ⟨b2, r2, e2, c2⟩ := compact128_head hn
  have hb : b1 = b2 := by rw [e1, e2] at h; simp at h; exact h.1
  subst hb
  have hbm := bigLen_bounds hm
  have hbn := bigLen_bounds hn
  unfold compact128 at h
  rcases c1 with ⟨x1, y1⟩ | ⟨x1, x1', y1⟩ | ⟨x1, x1', y1⟩ | ⟨x1, y1⟩ <;>
    rcases c2 with ⟨x2, y2⟩ | ⟨x2, x2', y2⟩ | ⟨x2, x2', y2⟩ | ⟨x2, y2⟩ <;>
    first
    | omega
    | skip
  · rw [if_pos x1, if_pos x2] at h
    have := Scale.leBytes_append_inj (by omega) (by omega) h
    exact ⟨by omega, this.2⟩
  · rw [if_neg (show ¬ m < 2 ^ 6 by omega), if_neg (show ¬ n < 2 ^ 6 by omega), if_pos x1', if_pos x2'] at h
    have := Scale.leBytes_append_inj (by omega) (by omega) h
    exact ⟨by omega, this.2⟩
  · rw [if_neg (show ¬ m < 2 ^ 6 by omega), if_neg (show ¬ n < 2 ^ 6 by omega), if_neg (show ¬ m < 2 ^ 14 by omega),
      if_neg (show ¬ n < 2 ^ 14 by omega), if_pos x1', if_pos x2'] at h
    have := Scale.leBytes_append_inj (by omega) (by omega) h
    exact ⟨by omega, this.2⟩
  · have hk : bigLen m = bigLen n := by omega
    rw [if_neg (show ¬ m < 2 ^ 6 by omega), if_neg (show ¬ n < 2 ^ 6 by omega), if_neg (show ¬ m < 2 ^ 14 by omega),
      if_neg (show ¬ n < 2 ^ 14 by omega), if_neg (show ¬ m < 2 ^ 30 by omega), if_neg (show ¬ n < 2 ^ 30 by omega), hk] at h
    simp only [List.cons_append, List.cons.injEq, true_and] at h
    have h1 := bigLen_fits m
    rw [hk] at h1
    exact Scale.leBytes_append_inj h1 (bigLen_fits n) h

theorem quantum_pow {k : Nat} (h : k ≤ 16) : quantum (2 ^ k) = 2 ^ (k - 12) := by
  rcases k with _ | _ | _ | _ | _ | _ | _ | _ | _ | _ | _ | _ | _ | _ | _ | _ | _ | k <;> first | decide | omega

/-- Phases of rounded periods fit in 12 bits. -/
theorem phase_fits {k phase : Nat} (h : k ≤ 16) (hp : phase < 2 ^ k) : phase / quantum (2 ^ k) < 4096 := by
  rw [quantum_pow h, Nat.div_lt_iff_lt_mul (Nat.two_pow_pos _)]
  calc phase < 2 ^ k := hp
    _ ≤ 2 ^ (12 + (k - 12)) := Nat.pow_le_pow_right (by decide) (by omega)
    _ = 4096 * 2 ^ (k - 12) := by rw [Nat.pow_add]

theorem Era.decode_encode {e : Era} (h : e.Valid) (r : Bytes) : Era.decode (e.encode ++ r) = some (e, r) := by
  cases e with
  | immortal => rfl
  | mortal period phase =>
    obtain ⟨k, h2, h16, rfl, hp, hq⟩ := h
    have hf := phase_fits h16 hp
    have hl : min (max ((2 ^ k).log2 - 1) 1) 15 = k - 1 := by rw [Nat.log2_two_pow]; omega
    have hm : 2 * 2 ^ (k - 1) = 2 ^ k := by rw [Nat.mul_comm, ← Nat.pow_succ]; congr 1; omega
    simp only [Era.encode, hl, Scale.u16, Scale.leBytes, List.cons_append, List.nil_append, Era.decode]
    have hx : phase / quantum (2 ^ k) * quantum (2 ^ k) = phase := Nat.div_mul_cancel hq
    generalize phase / quantum (2 ^ k) = x at hf hx
    have e1 : (UInt8.ofNat ((k - 1 + 16 * x) % 256)).toNat = (k - 1 + 16 * x) % 256 := by simp
    have e2 : (UInt8.ofNat ((k - 1 + 16 * x) / 256 % 256)).toNat = (k - 1 + 16 * x) / 256 % 256 := by simp
    have e3 : (k - 1 + 16 * x) % 256 + 256 * ((k - 1 + 16 * x) / 256 % 256) = k - 1 + 16 * x := by omega
    have e4 : (k - 1 + 16 * x) % 16 = k - 1 := by omega
    have e5 : (k - 1 + 16 * x) / 16 = x := by omega
    have h4 : 4 ≤ 2 ^ k := Nat.pow_le_pow_right (n := 2) (by decide) h2
    rw [e1, if_neg (by omega), e2, e3, e4, e5, hm, hx, if_pos ⟨h4, hp⟩]

/-- And nothing else can be read as an era. -/
theorem Era.decode_valid {b r : Bytes} {e : Era} (h : Era.decode b = some (e, r)) : e.Valid ∧ b = e.encode ++ r := by
  cases b with
  | nil => simp [Era.decode] at h
  | cons b rest =>
    simp only [Era.decode] at h
    by_cases h0 : b.toNat = 0
    · rw [if_pos h0] at h
      simp only [Option.some.injEq, Prod.mk.injEq] at h
      obtain ⟨rfl, rfl⟩ := h
      have : b = 0 := UInt8.toNat_inj.1 h0
      subst this
      exact ⟨trivial, rfl⟩
    · rw [if_neg h0] at h
      cases rest with
      | nil => simp at h
      | cons b' rest =>
        simp only at h
        split at h
        · rename_i hc
          simp only [Option.some.injEq, Prod.mk.injEq] at h
          obtain ⟨rfl, rfl⟩ := h
          have hb := b.toNat_lt
          have hb' := b'.toNat_lt
          generalize hv : b.toNat + 256 * b'.toNat = v at hc
          have hlt : v < 65536 := by omega
          have hp : 2 * 2 ^ (v % 16) = 2 ^ (v % 16 + 1) := by rw [Nat.pow_succ, Nat.mul_comm]
          rw [hp] at hc ⊢
          have h1 : 1 ≤ v % 16 := by
            rcases Nat.eq_zero_or_pos (v % 16) with h | h
            · rw [h] at hc; simp at hc
            · exact h
          have hq : 0 < quantum (2 ^ (v % 16 + 1)) := by unfold quantum; omega
          refine ⟨⟨v % 16 + 1, by omega, by omega, rfl, hc.2, Nat.dvd_mul_left _ _⟩, ?_⟩
          simp only [Era.encode, Nat.log2_two_pow, Nat.mul_div_cancel _ hq, Scale.u16, Scale.leBytes, List.cons_append,
            List.nil_append]
          have e : min (max (v % 16 + 1 - 1) 1) 15 + 16 * (v / 16) = v := by omega
          rw [e, ← hv]
          congr 1
          · apply UInt8.toNat_inj.1; simp
          · congr 1
            apply UInt8.toNat_inj.1; simp; omega
        · simp at h

/-- C151, transactions: two transactions accepted with the same signature, on whatever networks, have the same call, number,
tip and period, and the networks have the same genesis block, versions and block where the period begins. -/
theorem C151_binds (cfg cfg' : Config) (n n' : Net) (s s' : Sent) (hn : n.Ok) (hn' : n'.Ok)
    (hv : cfg'.whole.verify = cfg.whole.verify) (hs : s'.sig = s.sig) (hw : s'.tx.who = s.tx.who)
    (ho : OneMessage cfg.whole.verify s.sig s.tx.who) (hh : Hashes cfg cfg' n n' s s')
    (hc : ∀ a b, cfg.callBytes s.tx.call ++ a = cfg'.callBytes s'.tx.call ++ b → s.tx.call = s'.tx.call ∧ a = b)
    (he : s.era.Valid ∧ s'.era.Valid) (hnum : s.tx.nonce < 2 ^ 32 ∧ s'.tx.nonce < 2 ^ 32)
    (ht : s.tip < 2 ^ 128 ∧ s'.tip < 2 ^ 128) (ha : accepts cfg n s = true) (ha' : accepts cfg' n' s' = true) :
    (s'.tx.call = s.tx.call ∧ s'.tx.nonce = s.tx.nonce ∧ s'.tip = s.tip ∧ s'.era = s.era) ∧
    n'.genesis = n.genesis ∧ n'.spec = n.spec ∧ n'.txVersion = n.txVersion ∧
    n'.hashes[s.era.birth n'.now]? = n.hashes[s.era.birth n.now]? := by
  obtain ⟨a, a', e, e', hm⟩ := same_message hn hn' hv hs hw ho hh ha ha'
  obtain ⟨h0, h1, h2, h3, b, h4, h5⟩ := same_network hn hn' e e' hm
  unfold Sent.chosen at h0
  obtain ⟨c1, c2⟩ := hc _ _ h0
  have d := Era.decode_encode he.1 (Scale.compact s.tx.nonce ++ compact128 s.tip)
  rw [c2, Era.decode_encode he.2] at d
  simp only [Option.some.injEq, Prod.mk.injEq] at d
  obtain ⟨d1, d2⟩ := d
  obtain ⟨c3, c4⟩ := Scale.compact_inj hnum.2 hnum.1 d2
  have c4 : compact128 s'.tip ++ [] = compact128 s.tip ++ [] := by simp [c4]
  obtain ⟨c5, -⟩ := compact128_inj ht.2 ht.1 c4
  refine ⟨⟨c1.symm, c3, c5, d1⟩, h1.symm, h2.symm, h3.symm, ?_⟩
  rw [← d1] at h4
  rw [← d1, stored_mem h4, stored_mem h5]

/-! ## C152 -/

theorem run_append (cfg : Config) (n : Net) (h h' : List Event) : run cfg n (h ++ h') = run cfg (run cfg n h) h' := by
  unfold run; rw [List.foldl_append]

/-- Hashes are only added, versions change by upgrades only. -/
theorem run_hashes (cfg : Config) (h : List Event) : ∀ n : Net, (∃ l, (run cfg n h).hashes = n.hashes ++ l) ∧
    (NoUpgrade h → (run cfg n h).spec = n.spec ∧ (run cfg n h).txVersion = n.txVersion) := by
  induction h with
  | nil => exact fun n => ⟨⟨[], by simp [run]⟩, fun _ => ⟨rfl, rfl⟩⟩
  | cons x h ih =>
    intro n
    obtain ⟨⟨l, hl⟩, hv⟩ := ih (apply cfg n x)
    have hs : ∃ l, (apply cfg n x).hashes = n.hashes ++ l := by
      cases x with
      | block k => exact ⟨[k], rfl⟩
      | sent s =>
        refine ⟨[], ?_⟩
        show (if accepts cfg n s = true then _ else n).hashes = _
        split <;> simp [Net.onChain]
      | _ => exact ⟨[], by simp [apply, Net.onChain]⟩
    obtain ⟨l', hl'⟩ := hs
    refine ⟨⟨l' ++ l, ?_⟩, fun hn => ?_⟩
    · show (run cfg (apply cfg n x) h).hashes = _
      rw [hl, hl', List.append_assoc]
    · obtain ⟨v1, v2⟩ := hv (fun a b c hm => hn a b c (List.mem_cons_of_mem _ hm))
      have hx : (apply cfg n x).spec = n.spec ∧ (apply cfg n x).txVersion = n.txVersion := by
        cases x with
        | upgrade a b c => exact absurd (List.mem_cons_self ..) (hn a b c)
        | sent s =>
          show (if accepts cfg n s = true then _ else n).spec = _ ∧ (if accepts cfg n s = true then _ else n).txVersion = _
          split <;> exact ⟨rfl, rfl⟩
        | _ => exact ⟨rfl, rfl⟩
      exact ⟨v1.trans hx.1, v2.trans hx.2⟩

theorem Era.Valid.pos {period phase : Nat} (h : (Era.mortal period phase).Valid) : 4 ≤ period ∧ phase < period := by
  obtain ⟨k, h2, -, rfl, hp, -⟩ := h
  exact ⟨Nat.pow_le_pow_right (n := 2) (by decide) h2, hp⟩

/-- The period to which a block belongs. -/
theorem birth_period {period phase now : Nat} (hp : 0 < period) (h : phase ≤ now) :
    (Era.mortal period phase).birth now ≤ now ∧ now < (Era.mortal period phase).birth now + period := by
  simp only [Era.birth, Nat.max_eq_left h]
  have h1 := Nat.div_mul_le_self (now - phase) period
  have h2 := Nat.lt_div_mul_add hp (a := now - phase)
  omega

/-- Blocks of a period have the same birth. -/
theorem birth_same {period phase now now' : Nat} (hp : 0 < period) (h : phase ≤ now)
    (h1 : (Era.mortal period phase).birth now ≤ now') (h2 : now' < (Era.mortal period phase).birth now + period) :
    (Era.mortal period phase).birth now' = (Era.mortal period phase).birth now := by
  simp only [Era.birth, Nat.max_eq_left h] at h1 h2 ⊢
  have hf : phase ≤ now' := by omega
  rw [Nat.max_eq_left hf]
  have : (now' - phase) / period = (now - phase) / period := by
    apply Nat.div_eq_of_lt_le
    · omega
    · rw [Nat.add_mul]; omega
  rw [this]

/-- C152: a transaction with a period is accepted in blocks of one period only, after the block where it begins. -/
theorem C152_period (cfg : Config) (n : Net) (s : Sent) (period phase : Nat) (he : s.era = .mortal period phase)
    (hv : s.era.Valid) (ha : accepts cfg n s = true) :
    phase ≤ n.now ∧ s.era.birth n.now < n.now ∧ n.now < s.era.birth n.now + period := by
  obtain ⟨a, e, -⟩ := accepts_some ha
  obtain ⟨g, b, -, h2, -⟩ := additional_some e
  have hb : s.era.birth n.now < n.now := (List.getElem?_eq_some_iff.1 (stored_mem h2)).1
  rw [he] at hv hb ⊢
  obtain ⟨h4, -⟩ := hv.pos
  have hf : phase ≤ n.now := by
    simp only [Era.birth] at hb
    omega
  exact ⟨hf, hb, (birth_period (by omega) hf).2⟩

/-- C152: wherever else the transaction is accepted, on this branch of the chain or another one, it is in the same period,
and the block where it begins is the same. Otherwise it has no effect, whatever happened to the number of the account. -/
theorem C152_only (cfg : Config) (n n' : Net) (s : Sent) (period phase : Nat) (hn : n.Ok) (hn' : n'.Ok)
    (he : s.era = .mortal period phase) (hv : s.era.Valid) (ho : OneMessage cfg.whole.verify s.sig s.tx.who)
    (hh : Hashes cfg cfg n n' s s) (hd : ∀ (i j : Nat) b, n.hashes[i]? = some b → n'.hashes[j]? = some b → i = j)
    (ha : accepts cfg n s = true) :
    (accepts cfg n' s = true → s.era.birth n.now < n'.now ∧ n'.now < s.era.birth n.now + period ∧
      n'.hashes[s.era.birth n.now]? = n.hashes[s.era.birth n.now]?) ∧
    (n'.now ≤ s.era.birth n.now ∨ s.era.birth n.now + period ≤ n'.now ∨
      n'.hashes[s.era.birth n.now]? ≠ n.hashes[s.era.birth n.now]? → apply cfg n' (.sent s) = n') := by
  have key : accepts cfg n' s = true → s.era.birth n.now < n'.now ∧ n'.now < s.era.birth n.now + period ∧
      n'.hashes[s.era.birth n.now]? = n.hashes[s.era.birth n.now]? := by
    intro ha'
    obtain ⟨a, a', e, e', hm⟩ := same_message hn hn' rfl rfl rfl ho hh ha ha'
    obtain ⟨-, -, -, -, b, h4, h5⟩ := same_network hn hn' e e' hm
    have hb := hd _ _ _ (stored_mem h4) (stored_mem h5)
    obtain ⟨-, p1, p2⟩ := C152_period cfg n' s period phase he hv ha'
    rw [hb]
    refine ⟨p1, p2, ?_⟩
    rw [stored_mem h5, ← hb, stored_mem h4]
  refine ⟨key, fun h => ?_⟩
  cases hf : accepts cfg n' s with
  | false => exact refused hf
  | true =>
    obtain ⟨h1, h2, h3⟩ := key hf
    rcases h with h | h | h
    · omega
    · omega
    · exact absurd h3 h

/-- C152 if the period is not longer than block hashes are kept. Missing: longer periods, which end early
(`C152_full_false`). -/
theorem C152_lasts_partial (cfg : Config) (n : Net) (s : Sent) (period phase : Nat) (he : s.era = .mortal period phase)
    (hv : s.era.Valid) (hk : period ≤ cfg.kept + 2) (ha : accepts cfg n s = true) (h : List Event) (hu : NoUpgrade h)
    (hn' : (run cfg n h).Ok) (hd : (run cfg n h).hashes.Nodup) (ho : OneMessage cfg.whole.verify s.sig s.tx.who)
    (hh : Hashes cfg cfg n (run cfg n h) s s) :
    accepts cfg (run cfg n h) s = true ↔ (run cfg n h).now < s.era.birth n.now + period := by
  obtain ⟨⟨l, hl⟩, hver⟩ := run_hashes cfg h n
  obtain ⟨v1, v2⟩ := hver hu
  have hlen : n.now ≤ (run cfg n h).now := by unfold Net.now; rw [hl, List.length_append]; omega
  have hpre : ∀ i, i < n.now → (run cfg n h).hashes[i]? = n.hashes[i]? := fun i hi => by
    rw [hl, List.getElem?_append_left hi]
  obtain ⟨p0, p1, p2⟩ := C152_period cfg n s period phase he hv ha
  constructor
  · intro ha'
    have hn : n.Ok := ⟨fun b hb => hn'.hashes b (by rw [hl]; exact List.mem_append_left _ hb), v1 ▸ hn'.spec, v2 ▸ hn'.txVersion⟩
    refine ((C152_only cfg n _ s period phase hn hn' he hv ho hh ?_ ha).1 ha').2.1
    intro i j b h1 h2
    have hi : i < n.now := (List.getElem?_eq_some_iff.1 h1).1
    rw [← hpre i hi] at h1
    exact (List.getElem?_inj (List.getElem?_eq_some_iff.1 h1).1 hd).1 (h1.trans h2.symm)
  · intro hlt
    have hb : s.era.birth (run cfg n h).now = s.era.birth n.now := by
      rw [he] at p1 p2 hlt hv ⊢
      exact birth_same (by have := hv.pos; omega) p0 (by omega) hlt
    have hs : additional cfg (run cfg n h) s.era = additional cfg n s.era := by
      unfold additional stored
      rw [hb, v1, v2, if_pos (Or.inl rfl), if_pos (Or.inl rfl), hpre 0 (by omega), if_pos (Or.inr (by omega)),
        if_pos (Or.inr (by omega)), hpre _ p1]
    unfold accepts at ha ⊢
    rw [hs]
    exact ha

theorem nextPower_spec (n : Nat) : ∃ k, nextPower n = 2 ^ k ∧ n ≤ 2 ^ k ∧ 2 ^ k < max (2 * n) 2 := by
  unfold nextPower
  split
  · exact ⟨0, rfl, by omega, by omega⟩
  · have h1 := Nat.log2_self_le (n := n - 1) (by omega)
    have h2 := Nat.lt_log2_self (n := n - 1)
    refine ⟨_, rfl, by omega, ?_⟩
    rw [Nat.pow_succ]
    omega

/-- The period a wallet gets. -/
theorem wanted_pow (period : Nat) : ∃ k, 2 ≤ k ∧ k ≤ 16 ∧ min (max (nextPower period) 4) 65536 = 2 ^ k := by
  obtain ⟨k, hk, -⟩ := nextPower_spec period
  rw [hk]
  rcases Nat.lt_or_ge k 2 with h | h
  · refine ⟨2, by omega, by omega, ?_⟩
    have : 2 ^ k ≤ 2 ^ 2 := Nat.pow_le_pow_right (by decide) (by omega)
    omega
  · rcases Nat.lt_or_ge k 16 with h' | h'
    · refine ⟨k, h, by omega, ?_⟩
      have h1 : 2 ^ 2 ≤ 2 ^ k := Nat.pow_le_pow_right (by decide) h
      have h2 : 2 ^ k ≤ 2 ^ 16 := Nat.pow_le_pow_right (by decide) (by omega)
      omega
    · refine ⟨16, by omega, by omega, ?_⟩
      have h2 : 2 ^ 16 ≤ 2 ^ k := Nat.pow_le_pow_right (by decide) h'
      omega

/-- C152: what a wallet gets that asks for a period. It is at least as long as wanted, begins at most 15 blocks before the
current one, and contains it. -/
theorem C152_wanted (period now : Nat) (hp : period ≤ 65536) : ∃ p f, Era.wanted period now = .mortal p f ∧
    (Era.wanted period now).Valid ∧ period ≤ p ∧ p < max (2 * period) 5 ∧ (Era.wanted period now).birth now ≤ now ∧
    now < (Era.wanted period now).birth now + p ∧ now < (Era.wanted period now).birth now + 16 := by
  obtain ⟨_, e, hle, hlt⟩ := nextPower_spec period
  rw [← e] at hle hlt
  obtain ⟨k, h2, h16, hk⟩ := wanted_pow period
  unfold Era.wanted
  simp only
  rw [hk]
  have hq : 0 < quantum (2 ^ k) ∧ quantum (2 ^ k) ≤ 16 := by
    have : 2 ^ k ≤ 2 ^ 16 := Nat.pow_le_pow_right (by decide) h16
    unfold quantum
    omega
  have hpos : 0 < 2 ^ k := Nat.pow_pos (by decide)
  have hm := Nat.mod_lt now hpos
  have hf := Nat.div_mul_le_self (now % 2 ^ k) (quantum (2 ^ k))
  have hf' := Nat.lt_div_mul_add hq.1 (a := now % 2 ^ k)
  have hn := Nat.mod_le now (2 ^ k)
  have hb : (Era.mortal (2 ^ k) (now % 2 ^ k / quantum (2 ^ k) * quantum (2 ^ k))).birth now
      = now - now % 2 ^ k + now % 2 ^ k / quantum (2 ^ k) * quantum (2 ^ k) := by
    generalize now % 2 ^ k / quantum (2 ^ k) * quantum (2 ^ k) = f at *
    simp only [Era.birth]
    rw [Nat.max_eq_left (by omega)]
    have e : now - f = (now % 2 ^ k - f) + 2 ^ k * (now / 2 ^ k) := by
      have := Nat.mod_add_div now (2 ^ k)
      omega
    rw [e, Nat.add_mul_div_left _ _ hpos, Nat.div_eq_of_lt (by omega)]
    have := Nat.mod_add_div now (2 ^ k)
    rw [Nat.zero_add, Nat.mul_comm]
    omega
  refine ⟨_, _, rfl, ⟨k, h2, h16, rfl, by omega, Nat.dvd_mul_left _ _⟩, by omega, by omega, by omega, by omega, by omega⟩

/-- C152: an era is what its encoding says, and every encoding that is read is that of a proper era. -/
theorem C152_codec : (∀ (e : Era) (rest : Bytes), e.Valid → Era.decode (e.encode ++ rest) = some (e, rest)) ∧
    (∀ (b : Bytes) (e : Era) (rest : Bytes), Era.decode b = some (e, rest) → e.Valid ∧ b = e.encode ++ rest) :=
  ⟨fun _ rest h => Era.decode_encode h rest, fun _ _ _ h => Era.decode_valid h⟩

/-! ## Examples -/

/-- Signatures that belong to one message. -/
def exVerify (sig : Signature) (_ : AccountId) (m : Bytes) : Bool := sig == Scale.leVal (m ++ [1])

theorem leVal_snoc_inj : ∀ m m' : Bytes, Scale.leVal (m ++ [1]) = Scale.leVal (m' ++ [1]) → m = m' := by
  have pos : ∀ m : Bytes, 1 ≤ Scale.leVal (m ++ [1]) := by
    intro m
    induction m with
    | nil => decide
    | cons b m ih => simp only [List.cons_append, Scale.leVal]; omega
  have one : Scale.leVal [1] = 1 := by decide
  intro m
  induction m with
  | nil =>
    intro m' h
    cases m' with
    | nil => rfl
    | cons b m' =>
      have := pos m'
      simp only [List.nil_append, List.cons_append, Scale.leVal, one] at h
      omega
  | cons b m ih =>
    intro m' h
    cases m' with
    | nil =>
      have := pos m
      simp only [List.nil_append, List.cons_append, Scale.leVal] at h
      have : (1 : UInt8).toNat = 1 := rfl
      omega
    | cons b' m' =>
      simp only [List.cons_append, Scale.leVal] at h
      have hb := b.toNat_lt
      have hb' := b'.toNat_lt
      rw [ih m' (by omega), UInt8.toNat_inj.1 (by omega : b.toNat = b'.toNat)]

theorem exVerify_one (sig : Signature) (k : AccountId) : OneMessage exVerify sig k := by
  intro m m' h h'
  simp only [exVerify, beq_iff_eq] at h h'
  exact leVal_snoc_inj _ _ (h.symm.trans h')

/-- Calls have one byte here. -/
def exCfg : Config :=
  ⟨⟨{ Wrapped.exCfg with wallet.tokens.chain.msa.verify := exVerify }, exVerify, fun p => decide (p.nonce = 0)⟩, 4096,
   fun _ => [7], fun b => Scale.leBytes 32 (Scale.leVal (b ++ [1]) % (2 ^ 256 - 189))⟩

/-- The key of the transaction signs it for the network. -/
def signed (cfg : Config) (n : Net) (tx : Wrapped.Signed) (e : Era) (tip : Balance) : Sent :=
  ⟨tx, e, tip, Scale.leVal (digest cfg ((⟨tx, e, tip, 0⟩ : Sent).chosen cfg ++ (additional cfg n e).getD []) ++ [1])⟩

/-- A network with some genesis block. -/
def exNet (i : Nat) : Net := start (Scale.leBytes 32 i) 100 1 1024 Wrapped.exLedger

/-- Keys 20 and 40 create accounts; that of key 40 becomes a provider. -/
def exUse (n : Net) : List Event :=
  [.sent (signed exCfg n ⟨20, 0, .leaf (.msa .create), 100, 6, 2, Wallet.exEnv⟩ .immortal 0),
   .sent (signed exCfg n ⟨40, 0, .leaf (.msa .create), 100, 6, 2, Wallet.exEnv⟩ .immortal 0),
   .sent (signed exCfg n ⟨40, 1, .leaf (.msa (.createProvider [65])), 100, 6, 2, Wallet.exEnv⟩ .immortal 0)]

theorem exNet_reached (i : Nat) (h : List Event) : Reached exCfg (Scale.leBytes 32 i) (run exCfg (exNet i) h) :=
  ⟨100, 1, 1024, _, h, rfl⟩

/-- Blocks do not change versions, and add their hashes. -/
theorem run_blocks (cfg : Config) (l : List Bytes) (n : Net) :
    (run cfg n (l.map .block)).hashes = n.hashes ++ l ∧ (run cfg n (l.map .block)).spec = n.spec ∧
      (run cfg n (l.map .block)).txVersion = n.txVersion := by
  induction l generalizing n with
  | nil => exact ⟨by simp [run], rfl, rfl⟩
  | cons b l ih =>
    obtain ⟨h1, h2, h3⟩ := ih (apply cfg n (.block b))
    refine ⟨h1.trans ?_, h2, h3⟩
    show (n.hashes ++ [b]) ++ l = _
    simp

theorem exNet_ok (i : Nat) : (exNet i).Ok :=
  ⟨fun h hh => by rw [List.mem_singleton.1 hh, Scale.length_leBytes], (by decide : 100 < 2 ^ 32),
    (by decide : 1 < 2 ^ 32)⟩

/-- What a passkey of key 30 sends: a transfer of 50 tokens. -/
def exPasskey : Event :=
  .passkey Wallet.exEnv 10 ⟨[1], [], [], [], 30, 0, Scale.leVal (Msa.wrap [1] ++ [1]), .transfer false 40 50⟩

/-- A passkey transaction takes effect on two networks. -/
theorem C151_passkey : apply exCfg (exNet 1) exPasskey ≠ exNet 1 ∧ apply exCfg (exNet 2) exPasskey ≠ exNet 2 := by
  constructor
  · intro h
    exact absurd (congrArg (fun n => n.chain.nonces 30) h) (by decide +kernel)
  · intro h
    exact absurd (congrArg (fun n => n.chain.nonces 30) h) (by decide +kernel)

/-- Key 20 delegates to the provider. -/
def exGrant : Msa.Call :=
  .grantDelegation 20 (Scale.leVal (Msa.wrap (Msa.AddProvider.encode ⟨2, [], 50⟩) ++ [1])) ⟨2, [], 50⟩

/-- The provider can submit the same signature on two networks. -/
theorem C151_payload (i : Nat) (hi : i = 1 ∨ i = 2) : Chain.Succeeds exCfg.whole.wrapped.chain Chain.exBal
    (run exCfg (exNet i) (exUse (exNet i))).chain.world.chain 40 (.msa exGrant) := by
  have : (Chain.dispatch exCfg.whole.wrapped.chain Chain.exBal (run exCfg (exNet i) (exUse (exNet i))).chain.world.chain
    (.signed 40) (.msa exGrant)).isSome = true := by
    rcases hi with rfl | rfl <;> decide +kernel
  exact Option.isSome_iff_exists.1 this

/-- C151 in full is false: passkey transactions and payloads for others to submit do not name the network. -/
theorem C151_full_false : ¬ C151_full := by
  intro hf
  have h := hf exCfg exCfg (Scale.leBytes 32 1) (Scale.leBytes 32 2) (exNet 1) (exNet 2) rfl rfl exVerify_one exVerify_one
    (exNet_reached 1 []) (exNet_reached 2 []) (exNet_ok 1) (exNet_ok 2) (by decide)
  exact C151_passkey.2 (h.passkey _ _ _ C151_passkey.1)

/-- The first three blocks, and the next ones. -/
def exBlocks (from_ len : Nat) : List Event := ((List.range' from_ len).map (Scale.leBytes 32)).map .block

/-- A transfer with a period of 8192 blocks, which begins with block 2. -/
def exSent : Sent :=
  signed exCfg (run exCfg (exNet 0) (exBlocks 1 2)) ⟨20, 0, .transfer false 40 50, 100, 6, 2, Wallet.exEnv⟩ (.mortal 8192 2) 0

theorem exHashes (from_ len : Nat) (n : Net) (h : n.hashes = (List.range' 0 from_).map (Scale.leBytes 32)) :
    (run exCfg n (exBlocks from_ len)).hashes = (List.range' 0 (from_ + len)).map (Scale.leBytes 32) := by
  rw [exBlocks, (run_blocks _ _ _).1, h, ← List.map_append]
  congr 1
  have := List.range'_append_1 (s := 0) (m := from_) (n := len)
  simpa using this

/-- C152 in full is false: with a period of 8192 blocks, the transaction is not accepted any more when the hash of the block
where the period begins is not kept any more. -/
theorem C152_full_false : ¬ C152_full := by
  intro hf
  obtain ⟨len, hlen⟩ : ∃ len, len = 4097 := ⟨_, rfl⟩
  have h3 : (run exCfg (exNet 0) (exBlocks 1 2)).hashes = (List.range' 0 3).map (Scale.leBytes 32) := exHashes 1 2 _ rfl
  have hlate := exHashes 3 len _ h3
  have hnow : (run exCfg (run exCfg (exNet 0) (exBlocks 1 2)) (exBlocks 3 len)).now = 4100 := by
    unfold Net.now
    rw [hlate, List.length_map, List.length_range', hlen]
  have hbirth : Era.birth (run exCfg (exNet 0) (exBlocks 1 2)).now exSent.era = 2 := by decide +kernel
  have hnone : additional exCfg (run exCfg (run exCfg (exNet 0) (exBlocks 1 2)) (exBlocks 3 len)) exSent.era = none := by
    unfold additional
    rw [hnow]
    have e : Era.birth 4100 exSent.era = 2 := by decide +kernel
    have e' : stored exCfg.kept (run exCfg (run exCfg (exNet 0) (exBlocks 1 2)) (exBlocks 3 len)) 2 = none := by
      unfold stored
      rw [hnow, if_neg (by decide)]
    rw [e, e']
    cases stored exCfg.kept (run exCfg (run exCfg (exNet 0) (exBlocks 1 2)) (exBlocks 3 len)) 0 <;> rfl
  have hr := run_blocks exCfg ((List.range' 3 len).map (Scale.leBytes 32)) (run exCfg (exNet 0) (exBlocks 1 2))
  have h := hf exCfg (Scale.leBytes 32 0) (run exCfg (exNet 0) (exBlocks 1 2)) exSent 8192 2 (exNet_reached 0 _) rfl
    ⟨13, by decide, by decide, by decide, by decide, by decide⟩ (by decide +kernel) (exBlocks 3 len)
    (fun _ _ _ hm => by
      obtain ⟨_, -, e⟩ := List.mem_map.1 hm
      cases e) ⟨?_, ?_, ?_⟩ ?_ (exVerify_one _ _)
    ⟨rfl, fun _ => Scale.length_leBytes _ _, fun a a' _ e => by rw [hnone] at e; cases e⟩
  · have hno : accepts exCfg (run exCfg (run exCfg (exNet 0) (exBlocks 1 2)) (exBlocks 3 len)) exSent = false := by
      unfold accepts
      rw [hnone]
    rw [hnow, hbirth, hno] at h
    exact absurd (h.2 (by decide)) (by decide)
  · intro b hb
    rw [hlate] at hb
    obtain ⟨_, -, rfl⟩ := List.mem_map.1 hb
    exact Scale.length_leBytes _ _
  · exact lt_of_eq_of_lt hr.2.1 (by decide +kernel)
  · exact lt_of_eq_of_lt hr.2.2 (by decide +kernel)
  · rw [hlate]
    refine List.Nodup.map_on ?_ (List.nodup_range' (s := 0) (n := 3 + len))
    intro x hx y hy e
    rw [List.mem_range'_1] at hx hy
    exact Scale.leBytes_inj (by omega) (by omega) e

theorem exHashes_of (n n' : Net) (s : Sent)
    (h : exCfg.hash (s.chosen exCfg ++ (additional exCfg n s.era).getD []) ≠
      exCfg.hash (s.chosen exCfg ++ (additional exCfg n' s.era).getD []) ∨ additional exCfg n s.era = additional exCfg n' s.era) :
    Hashes exCfg exCfg n n' s s := by
  refine ⟨rfl, fun _ => Scale.length_leBytes _ _, fun a a' e e' hq => ?_⟩
  rw [e, e'] at h
  rcases h with h | h
  · exact absurd hq h
  · rw [Option.some.inj h]

/-- Key 20 transfers tokens, for network 1. -/
def exTransfer (e : Era) : Sent :=
  signed exCfg (run exCfg (exNet 1) (exBlocks 2 2)) ⟨20, 0, .transfer false 40 50, 100, 6, 2, Wallet.exEnv⟩ e 0

/-- The hypotheses of `C151_elsewhere_partial` hold: the transfer is accepted on network 1, and takes effect; on network 2 it
does not. -/
example : apply exCfg (exNet 1) (.sent (exTransfer .immortal)) ≠ exNet 1 ∧
    apply exCfg (exNet 2) (.sent (exTransfer .immortal)) = exNet 2 := by
  constructor
  · intro h
    exact absurd (congrArg (fun n => n.chain.nonces 20) h) (by decide +kernel)
  · exact (C151_elsewhere_partial exCfg exCfg (exNet 1) (exNet 2) _ (exNet_ok 1) (exNet_ok 2) rfl (exVerify_one _ _)
      (exHashes_of _ _ _ (Or.inl (by decide +kernel))) (by decide +kernel) (Or.inl (by decide +kernel))).2

/-- The hypotheses of `C151_binds` hold for a transfer without a period, in two blocks. -/
example : (run exCfg (exNet 1) (exBlocks 2 2)).genesis = (exNet 1).genesis :=
  (C151_binds exCfg exCfg (exNet 1) (run exCfg (exNet 1) (exBlocks 2 2)) (exTransfer .immortal) (exTransfer .immortal)
    (exNet_ok 1) ⟨by decide +kernel, by decide +kernel, by decide +kernel⟩ rfl rfl rfl (exVerify_one _ _)
    (exHashes_of _ _ _ (Or.inr (by decide +kernel)))
    (fun a b h => ⟨rfl, by simpa [exCfg] using h⟩) ⟨trivial, trivial⟩ ⟨by decide +kernel, by decide +kernel⟩
    ⟨by decide +kernel, by decide +kernel⟩ (by decide +kernel) (by decide +kernel)).2.1

/-- A transfer with a period of 4 blocks which begins with block 2. -/
def exShort : Sent := exTransfer (.mortal 4 2)

theorem exShort_valid : exShort.era.Valid := ⟨2, by decide, by decide, by decide, by decide, by decide⟩

theorem exShort_ok (len : Nat) (h : len < 1000) :
    (run exCfg (run exCfg (exNet 1) (exBlocks 2 2)) (exBlocks 4 len)).Ok ∧
    (run exCfg (run exCfg (exNet 1) (exBlocks 2 2)) (exBlocks 4 len)).hashes.Nodup := by
  have h3 : (run exCfg (exNet 1) (exBlocks 2 2)).hashes = (List.range' 1 3).map (Scale.leBytes 32) := by decide +kernel
  have hr := run_blocks exCfg ((List.range' 4 len).map (Scale.leBytes 32)) (run exCfg (exNet 1) (exBlocks 2 2))
  have e : (run exCfg (run exCfg (exNet 1) (exBlocks 2 2)) (exBlocks 4 len)).hashes
      = (List.range' 1 (3 + len)).map (Scale.leBytes 32) := by
    refine hr.1.trans ?_
    rw [h3, ← List.map_append]
    congr 1
    have := List.range'_append_1 (s := 1) (m := 3) (n := len)
    simpa using this
  refine ⟨⟨?_, lt_of_eq_of_lt hr.2.1 (by decide +kernel), lt_of_eq_of_lt hr.2.2 (by decide +kernel)⟩, ?_⟩
  · intro b hb
    rw [e] at hb
    obtain ⟨_, -, rfl⟩ := List.mem_map.1 hb
    exact Scale.length_leBytes _ _
  · rw [e]
    refine List.Nodup.map_on ?_ (List.nodup_range' (s := 1) (n := 3 + len))
    intro x hx y hy e
    rw [List.mem_range'_1] at hx hy
    exact Scale.leBytes_inj (by omega) (by omega) e

/-- The hypotheses of `C152_lasts_partial` hold: it is accepted in blocks 3 to 5, and not in block 6. -/
example : (accepts exCfg (run exCfg (run exCfg (exNet 1) (exBlocks 2 2)) (exBlocks 4 2)) exShort = true ↔ 5 < 6) ∧
    (accepts exCfg (run exCfg (run exCfg (exNet 1) (exBlocks 2 2)) (exBlocks 4 3)) exShort = true ↔ 6 < 6) :=
  ⟨C152_lasts_partial exCfg _ exShort 4 2 rfl exShort_valid (by decide) (by decide +kernel) (exBlocks 4 2)
      (fun _ _ _ hm => by obtain ⟨_, -, e⟩ := List.mem_map.1 hm; cases e) (exShort_ok 2 (by decide)).1
      (exShort_ok 2 (by decide)).2 (exVerify_one _ _) (exHashes_of _ _ _ (Or.inr (by decide +kernel))),
    C152_lasts_partial exCfg _ exShort 4 2 rfl exShort_valid (by decide) (by decide +kernel) (exBlocks 4 3)
      (fun _ _ _ hm => by obtain ⟨_, -, e⟩ := List.mem_map.1 hm; cases e) (exShort_ok 3 (by decide)).1
      (exShort_ok 3 (by decide)).2 (exVerify_one _ _) (exHashes_of _ _ _ (Or.inl (by decide +kernel)))⟩

/-- The hypotheses of `C152_only` hold on a branch with another block 2: the transfer has no effect there. -/
example : apply exCfg (run exCfg (exNet 1) (exBlocks 7 2)) (.sent exShort) = run exCfg (exNet 1) (exBlocks 7 2) := by
  refine (C152_only exCfg (run exCfg (exNet 1) (exBlocks 2 2)) (run exCfg (exNet 1) (exBlocks 7 2)) exShort 4 2
    (exShort_ok 0 (by decide)).1 ⟨by decide +kernel, by decide +kernel, by decide +kernel⟩ rfl exShort_valid
    (exVerify_one _ _) (exHashes_of _ _ _ (Or.inl (by decide +kernel))) ?_ (by decide +kernel)).2
    (Or.inr (Or.inr (by decide +kernel)))
  intro i j b h1 h2
  have e1 : (run exCfg (exNet 1) (exBlocks 2 2)).hashes = [Scale.leBytes 32 1, Scale.leBytes 32 2, Scale.leBytes 32 3] := by
    decide +kernel
  have e2 : (run exCfg (exNet 1) (exBlocks 7 2)).hashes = [Scale.leBytes 32 1, Scale.leBytes 32 7, Scale.leBytes 32 8] := by
    decide +kernel
  rw [e1] at h1
  rw [e2] at h2
  match i, j with
  | 0, 0 | 1, 1 | 2, 2 => rfl
  | 0, 1 | 0, 2 | 1, 0 | 1, 2 | 2, 0 | 2, 1 =>
    exact absurd (Option.some.inj (h1.trans h2.symm)) (by decide)
  | i + 3, _ => simp at h1
  | _, j + 3 => simp at h2

/-- A wallet that asks for 100 blocks at block 1000 gets the 128 blocks from 1000 on. -/
example : Era.wanted 100 1000 = .mortal 128 104 ∧ (Era.wanted 100 1000).birth 1000 = 1000 := by decide

end Verif.Network
