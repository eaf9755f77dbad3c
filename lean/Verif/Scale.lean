import Verif.Prelude
/-!
# SCALE encoding of the primitive types used in payloads and storage keys

Models the library `parity_scale_codec` (not part of the repository) for the fixed-width
little-endian integers, compact integers and byte vectors that the pallets encode.
-/

namespace Verif.Scale

/-- The `k` low bytes of `n`, least significant first: `u16`/`u32`/`u64::encode`. -/
def leBytes : Nat → Nat → Bytes
  | 0, _ => []
  | k + 1, n => UInt8.ofNat (n % 256) :: leBytes k (n / 256)

/-- Value of little-endian bytes. -/
def leVal : Bytes → Nat
  | [] => 0
  | b :: bs => b.toNat + 256 * leVal bs

/-- `u16::encode`. -/
def u16 (n : Nat) : Bytes := leBytes 2 n
/-- `u32::encode`. -/
def u32 (n : Nat) : Bytes := leBytes 4 n
/-- `u64::encode`. -/
def u64 (n : Nat) : Bytes := leBytes 8 n

/-- `Compact<u32>::encode` (parity_scale_codec compact.rs): one, two, four or five bytes. -/
def compact (n : Nat) : Bytes :=
  if n < 2 ^ 6 then leBytes 1 (n * 4)
  else if n < 2 ^ 14 then leBytes 2 (n * 4 + 1)
  else if n < 2 ^ 30 then leBytes 4 (n * 4 + 2)
  else UInt8.ofNat 3 :: leBytes 4 n

/-- `Compact<u32>::decode`, including the checks that reject non-canonical encodings. -/
def decCompact : Bytes → Option (Nat × Bytes)
  | [] => none
  | b :: rest =>
    match b.toNat % 4 with
    | 0 => some (b.toNat / 4, rest)
    | 1 =>
      match rest with
      | b1 :: rest' =>
        let v := leVal [b, b1] / 4
        if 2 ^ 6 ≤ v then some (v, rest') else none
      | _ => none
    | 2 =>
      match rest with
      | b1 :: b2 :: b3 :: rest' =>
        let v := leVal [b, b1, b2, b3] / 4
        if 2 ^ 14 ≤ v then some (v, rest') else none
      | _ => none
    | _ =>
      if b.toNat / 4 = 0 then
        match rest with
        | b1 :: b2 :: b3 :: b4 :: rest' =>
          let v := leVal [b1, b2, b3, b4]
          if 2 ^ 30 ≤ v then some (v, rest') else none
        | _ => none
      else none

/-- Bytes needed for a big compact integer: at least four. -/
def bigLen (n : Nat) : Nat :=
  if n < 2 ^ 32 then 4 else if n < 2 ^ 40 then 5 else if n < 2 ^ 48 then 6
  else if n < 2 ^ 56 then 7 else 8

/-- `Compact<u64>::encode` (parity_scale_codec compact.rs); agrees with `compact` below `2^32`. -/
def compact64 (n : Nat) : Bytes :=
  if n < 2 ^ 6 then leBytes 1 (n * 4)
  else if n < 2 ^ 14 then leBytes 2 (n * 4 + 1)
  else if n < 2 ^ 30 then leBytes 4 (n * 4 + 2)
  else UInt8.ofNat (3 + 4 * (bigLen n - 4)) :: leBytes (bigLen n) n

/-- `Vec<u8>::encode`: compact length, then the bytes. -/
def vecU8 (bs : Bytes) : Bytes := compact bs.length ++ bs

/-- `Vec<T>::encode` for an element encoding `f`. -/
def vecOf {α : Type} (f : α → Bytes) (xs : List α) : Bytes :=
  compact xs.length ++ (xs.map f).flatten

/-- Split off `n` bytes. -/
def takeExact (n : Nat) (bs : Bytes) : Option (Bytes × Bytes) :=
  if n ≤ bs.length then some (bs.take n, bs.drop n) else none

/-- `Vec<u8>::decode`. -/
def decVecU8 (bs : Bytes) : Option (Bytes × Bytes) :=
  match decCompact bs with
  | some (n, rest) => takeExact n rest
  | none => none

/-- Fixed-width little-endian decode (`u16`/`u32`/`u64::decode`). -/
def decLe (k : Nat) (bs : Bytes) : Option (Nat × Bytes) :=
  match takeExact k bs with
  | some (x, rest) => some (leVal x, rest)
  | none => none

/-! ## Lemmas -/

theorem length_leBytes (k n : Nat) : (leBytes k n).length = k := by
  induction k generalizing n with
  | zero => rfl
  | succ k ih => simp [leBytes, ih]

theorem leVal_leBytes (k n : Nat) : leVal (leBytes k n) = n % 256 ^ k := by
  induction k generalizing n with
  | zero => simp [leBytes, leVal, Nat.mod_one]
  | succ k ih =>
    simp only [leBytes, leVal, ih]
    have h1 : (UInt8.ofNat (n % 256)).toNat = n % 256 := by
      simp
    rw [h1, Nat.pow_succ, Nat.mul_comm (256 ^ k) 256, Nat.mod_mul]

theorem leBytes_inj {k m n : Nat} (hm : m < 256 ^ k) (hn : n < 256 ^ k)
    (h : leBytes k m = leBytes k n) : m = n := by
  have h1 := congrArg leVal h
  rw [leVal_leBytes, leVal_leBytes, Nat.mod_eq_of_lt hm, Nat.mod_eq_of_lt hn] at h1
  exact h1

theorem leVal_lt (bs : Bytes) : leVal bs < 256 ^ bs.length := by
  induction bs with
  | nil => simp [leVal]
  | cons b bs ih =>
    have : b.toNat < 256 := b.toNat_lt
    simp only [leVal, List.length_cons, Nat.pow_succ]
    omega

theorem leBytes_leVal (bs : Bytes) : leBytes bs.length (leVal bs) = bs := by
  induction bs with
  | nil => rfl
  | cons b bs ih =>
    have hb : b.toNat < 256 := b.toNat_lt
    simp only [leVal, List.length_cons, leBytes]
    have h1 : (b.toNat + 256 * leVal bs) % 256 = b.toNat := by omega
    have h2 : (b.toNat + 256 * leVal bs) / 256 = leVal bs := by omega
    rw [h1, h2, ih]
    simp

theorem takeExact_append (a b : Bytes) : takeExact a.length (a ++ b) = some (a, b) := by
  simp [takeExact]

theorem decLe_leBytes (k n : Nat) (hn : n < 256 ^ k) (rest : Bytes) :
    decLe k (leBytes k n ++ rest) = some (n, rest) := by
  have h := takeExact_append (leBytes k n) rest
  rw [length_leBytes] at h
  simp [decLe, h, leVal_leBytes, Nat.mod_eq_of_lt hn]

theorem decCompact_compact (n : Nat) (hn : n < 2 ^ 32) (rest : Bytes) :
    decCompact (compact n ++ rest) = some (n, rest) := by
  unfold compact
  split
  · rename_i h
    have e : (UInt8.ofNat (n * 4 % 256)).toNat = n * 4 := by simp; omega
    simp only [leBytes, List.cons_append, List.nil_append, decCompact, e]
    have : n * 4 % 4 = 0 := by omega
    simp only [this]
    have : n * 4 / 4 = n := by omega
    simp [this]
  split
  · rename_i h0 h
    have hv := leVal_leBytes 2 (n * 4 + 1)
    have e : (UInt8.ofNat ((n * 4 + 1) % 256)).toNat = (n * 4 + 1) % 256 := by simp
    simp only [leBytes, List.cons_append, List.nil_append, decCompact, e] at hv ⊢
    have h1 : (n * 4 + 1) % 256 % 4 = 1 := by omega
    simp only [h1, hv]
    have h2 : (n * 4 + 1) % 256 ^ 2 / 4 = n := by omega
    simp only [h2]
    simp
    omega
  split
  · rename_i h0 h0' h
    have hv := leVal_leBytes 4 (n * 4 + 2)
    have e : (UInt8.ofNat ((n * 4 + 2) % 256)).toNat = (n * 4 + 2) % 256 := by simp
    simp only [leBytes, List.cons_append, List.nil_append, decCompact, e] at hv ⊢
    have h1 : (n * 4 + 2) % 256 % 4 = 2 := by omega
    simp only [h1, hv]
    have h2 : (n * 4 + 2) % 256 ^ 4 / 4 = n := by omega
    simp only [h2]
    simp
    omega
  · rename_i h0 h0' h
    have hv := leVal_leBytes 4 n
    simp only [leBytes, List.cons_append, List.nil_append, decCompact] at hv ⊢
    have e : (UInt8.ofNat 3).toNat = 3 := rfl
    simp only [e, hv]
    have h2 : n % 256 ^ 4 = n := by omega
    simp only [h2]
    simp
    omega

theorem decVecU8_vecU8 (bs : Bytes) (h : bs.length < 2 ^ 32) (rest : Bytes) :
    decVecU8 (vecU8 bs ++ rest) = some (bs, rest) := by
  unfold decVecU8 vecU8
  rw [List.append_assoc, decCompact_compact _ h]
  exact takeExact_append bs rest

theorem compact_inj {m n : Nat} (hm : m < 2 ^ 32) (hn : n < 2 ^ 32) {a b : Bytes}
    (h : compact m ++ a = compact n ++ b) : m = n ∧ a = b := by
  have h1 := decCompact_compact m hm a
  rw [h, decCompact_compact n hn b] at h1
  simp at h1
  exact ⟨h1.1.symm, h1.2.symm⟩

theorem compact64_eq (n : Nat) (h : n < 2 ^ 32) : compact64 n = compact n := by
  have hb : bigLen n = 4 := by unfold bigLen; rw [if_pos h]
  unfold compact64 compact
  rw [hb]

theorem bigLen_bounds (n : Nat) : 4 ≤ bigLen n ∧ bigLen n ≤ 8 := by
  unfold bigLen; repeat' split
  all_goals omega

theorem bigLen_fits (n : Nat) (h : n < 2 ^ 64) : n < 256 ^ bigLen n := by
  unfold bigLen
  repeat' split
  all_goals simp only [Nat.reducePow] at *
  all_goals omega

theorem leBytes_append_inj {k m n : Nat} (hm : m < 256 ^ k) (hn : n < 256 ^ k) {a b : Bytes}
    (h : leBytes k m ++ a = leBytes k n ++ b) : m = n ∧ a = b := by
  have := List.append_inj h (by simp [length_leBytes])
  exact ⟨leBytes_inj hm hn this.1, this.2⟩

/-- First byte modulo four of a compact integer, and that byte. -/
theorem compact64_head (n : Nat) : ∃ b rest, compact64 n = b :: rest ∧
    ((n < 2 ^ 6 ∧ b.toNat % 4 = 0) ∨ (2 ^ 6 ≤ n ∧ n < 2 ^ 14 ∧ b.toNat % 4 = 1) ∨
     (2 ^ 14 ≤ n ∧ n < 2 ^ 30 ∧ b.toNat % 4 = 2) ∨
     (2 ^ 30 ≤ n ∧ b.toNat = 3 + 4 * (bigLen n - 4))) := by
  unfold compact64
  split
  · refine ⟨_, _, rfl, Or.inl ⟨by assumption, ?_⟩⟩; simp
  split
  · refine ⟨_, _, rfl, Or.inr (Or.inl ⟨by omega, by assumption, ?_⟩)⟩; simp
  split
  · refine ⟨_, _, rfl, Or.inr (Or.inr (Or.inl ⟨by omega, by assumption, ?_⟩))⟩; simp
  · refine ⟨_, _, rfl, Or.inr (Or.inr (Or.inr ⟨by omega, ?_⟩))⟩
    have := bigLen_bounds n
    simp; omega

theorem compact64_inj {m n : Nat} (hm : m < 2 ^ 64) (hn : n < 2 ^ 64) {a b : Bytes}
    (h : compact64 m ++ a = compact64 n ++ b) : m = n ∧ a = b := by
  obtain ⟨b1, r1, e1, c1⟩ := compact64_head m
  obtain ⟨b2, r2, e2, c2⟩ := compact64_head n
  have hb : b1 = b2 := by rw [e1, e2] at h; simp at h; exact h.1
  subst hb
  have hbm := bigLen_bounds m
  have hbn := bigLen_bounds n
  unfold compact64 at h
  rcases c1 with ⟨x1, y1⟩ | ⟨x1, x1', y1⟩ | ⟨x1, x1', y1⟩ | ⟨x1, y1⟩ <;>
    rcases c2 with ⟨x2, y2⟩ | ⟨x2, x2', y2⟩ | ⟨x2, x2', y2⟩ | ⟨x2, y2⟩ <;>
    first
    | omega
    | skip
  · rw [if_pos x1, if_pos x2] at h
    have := leBytes_append_inj (by omega) (by omega) h
    exact ⟨by omega, this.2⟩
  · rw [if_neg (show ¬ m < 2 ^ 6 by omega), if_neg (show ¬ n < 2 ^ 6 by omega), if_pos x1', if_pos x2'] at h
    have := leBytes_append_inj (by omega) (by omega) h
    exact ⟨by omega, this.2⟩
  · rw [if_neg (show ¬ m < 2 ^ 6 by omega), if_neg (show ¬ n < 2 ^ 6 by omega), if_neg (show ¬ m < 2 ^ 14 by omega),
      if_neg (show ¬ n < 2 ^ 14 by omega), if_pos x1', if_pos x2'] at h
    have := leBytes_append_inj (by omega) (by omega) h
    exact ⟨by omega, this.2⟩
  · have hk : bigLen m = bigLen n := by omega
    rw [if_neg (show ¬ m < 2 ^ 6 by omega), if_neg (show ¬ n < 2 ^ 6 by omega), if_neg (show ¬ m < 2 ^ 14 by omega),
      if_neg (show ¬ n < 2 ^ 14 by omega), if_neg (show ¬ m < 2 ^ 30 by omega), if_neg (show ¬ n < 2 ^ 30 by omega), hk] at h
    simp only [List.cons_append, List.cons.injEq, true_and] at h
    have h1 := bigLen_fits m hm
    rw [hk] at h1
    exact leBytes_append_inj h1 (bigLen_fits n hn) h

theorem vecU8_inj {x y a b : Bytes} (hx : x.length < 2 ^ 32) (hy : y.length < 2 ^ 32)
    (h : vecU8 x ++ a = vecU8 y ++ b) : x = y ∧ a = b := by
  have h1 := decVecU8_vecU8 x hx a
  rw [h, decVecU8_vecU8 y hy b] at h1
  simp at h1
  exact ⟨h1.1.symm, h1.2.symm⟩

end Verif.Scale
