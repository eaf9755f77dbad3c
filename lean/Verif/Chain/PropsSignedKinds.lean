import Verif.Chain.PropsSigned
import Verif.Stateful.PropsKinds
/-!
# Which kinds of signed requests are told apart (C104)

For each pair of kinds of requests to different pallets: either no two requests of these kinds have the same bytes,
or here are two that have.
-/

namespace Verif.Chain

/-! ## Specification -/

/-- The kinds of requests; those for storage are of the first version (with an account id) or the second. -/
inductive RequestKind where
  | delegation | key | handle
  | storage (a : Stateful.Asked) (first : Bool)
  | passkey
  deriving DecidableEq

/-- The kind of a request. -/
def Request.kind : Request → RequestKind
  | .delegation _ => .delegation
  | .key _ => .key
  | .handle _ => .handle
  | .items p => .storage .items p.msaId.isSome
  | .upsert p => .storage .upsert p.msaId.isSome
  | .delete p => .storage .delete p.msaId.isSome
  | .passkey _ => .passkey

/-- The pallet of a kind. -/
def RequestKind.pallet : RequestKind → Pallet
  | .delegation | .key => .msa
  | .handle => .handles
  | .storage _ _ => .storage
  | .passkey => .passkey

/-- The kinds that the bytes tell apart. -/
def keptApart : RequestKind → RequestKind → Bool
  | .key, .handle | .key, .passkey | .key, .storage .delete _ | .storage .delete _, .passkey => true
  | _, _ => false

/-- Two requests of these kinds have the same bytes. -/
def Shared (k l : RequestKind) : Prop :=
  ∃ a b : Request, a.WT ∧ b.WT ∧ a.kind = k ∧ b.kind = l ∧ a.bytes = b.bytes

/-! ## Proofs -/

theorem Shared.symm {k l : RequestKind} (h : Shared k l) : Shared l k := by
  obtain ⟨a, b, h1, h2, h3, h4, h5⟩ := h
  exact ⟨b, a, h2, h1, h4, h3, h5.symm⟩

theorem wt_delegation {p : Msa.AddProvider} (h : p.authorizedMsaId < 2 ^ 64 ∧ p.expiration < 2 ^ 32 ∧
    p.schemaIds.length < 2 ^ 30 ∧ ∀ id ∈ p.schemaIds, id < 2 ^ 16) : (Request.delegation p).WT := h

theorem wt_key {p : Msa.AddKeyData} (h : p.msaId < 2 ^ 64 ∧ p.expiration < 2 ^ 32 ∧ p.newPublicKey < 2 ^ 256) :
    (Request.key p).WT := h

theorem wt_handle {p : Handles.Payload} (h : p.baseHandle.length ≤ 32 ∧ p.expiration < 2 ^ 32) :
    (Request.handle p).WT := h

/-- C104, partial: additions of keys are kept apart from claims, passkeys and deletions, and deletions from passkeys.
Missing: all other pairs, for which it is false (`C104_kinds_collide`). -/
theorem C104_kinds_apart_partial (a b : Request) (ha : a.WT) (hb : b.WT) (h : keptApart a.kind b.kind = true) :
    a.bytes ≠ b.bytes := by
  cases a with
  | key q =>
    cases b with
    | handle p => exact fun h => C104_handle_key_partial p q hb h.symm
    | passkey k => exact (C104_lengths_partial q ⟨none, 0, 0, 0, 0⟩ k hb).1
    | delete p => exact (C104_lengths_partial q p (List.replicate 33 0) rfl).2.1
    | _ => simp [Request.kind, keptApart] at h
  | delete p =>
    cases b with
    | passkey k => exact (C104_lengths_partial ⟨0, 0, 0⟩ p k hb).2.2
    | _ => simp [Request.kind, keptApart] at h
  | _ => simp [Request.kind, keptApart] at h

/-- C104 is false of the code for every other pair of kinds of different pallets. -/
theorem C104_kinds_collide (k l : RequestKind) (hp : k.pallet ≠ l.pallet) (h1 : keptApart k l = false)
    (h2 : keptApart l k = false) :
    ∃ a b : Request, a.WT ∧ b.WT ∧ a.kind = k ∧ b.kind = l ∧ a.bytes = b.bytes := by
  have w1 : Shared .delegation .handle :=
    ⟨.delegation ⟨2594074519236771872, [], 335740932⟩, .handle ⟨[0, 0, 0, 8, 1, 0, 36, 0], 335740932⟩,
      wt_delegation (by decide), wt_handle (by decide), rfl, rfl, by decide +kernel⟩
  have w2 : Shared .delegation (.storage .items true) :=
    ⟨.delegation ⟨288903299078340620, [], 281027596⟩, .items ⟨some 3, 48, 0, 40109332, [.add [36, 192, 16]]⟩,
      wt_delegation (by decide), ⟨⟨by simp, by decide⟩, by decide⟩, rfl, rfl, by decide +kernel⟩
  have w3 : Shared .delegation (.storage .items false) :=
    ⟨.delegation ⟨2251804125571100, [], 33622016⟩, .items ⟨none, 7, 10, 65794, [.add [], .add [1, 2]]⟩,
      wt_delegation (by decide), ⟨⟨by simp, by decide⟩, by decide⟩, rfl, rfl, by decide +kernel⟩
  have w4 : Shared .delegation (.storage .upsert true) :=
    ⟨.delegation ⟨3459328616505016612, [], 3221752844⟩, .upsert ⟨some 9, 2048, 25, 3, 3146241, [12, 8, 192]⟩,
      wt_delegation (by decide), ⟨⟨by simp, by decide⟩, by decide⟩, rfl, rfl, by decide +kernel⟩
  have w5 : Shared .delegation (.storage .upsert false) :=
    ⟨.delegation ⟨4334767624077706241, [], 134752268⟩, .upsert ⟨none, 256, 1, 3072, 3942448, [40, 8, 8]⟩,
      wt_delegation (by decide), ⟨⟨by simp, by decide⟩, by decide⟩, rfl, rfl, by decide +kernel⟩
  have w6 : Shared .delegation (.storage .delete true) :=
    ⟨.delegation ⟨9073238824734727, [], 67584⟩, .delete ⟨some 257967070288, 8, 0, 0, 67584⟩, wt_delegation
      (by decide), ⟨⟨by simp, by decide⟩, by decide⟩, rfl, rfl, by decide +kernel⟩
  have w7 : Shared .delegation (.storage .delete false) :=
    ⟨.delegation ⟨281483566710786, [], 9⟩, .delete ⟨none, 16384, 16384, 0, 9⟩, wt_delegation (by decide),
      ⟨⟨by simp, by decide⟩, by decide⟩, rfl, rfl, by decide +kernel⟩
  have w8 : Shared .delegation .passkey :=
    ⟨.delegation ⟨576460838220137120, [7268, 60, 7248, 552, 257, 2048, 6148, 15396, 0, 521], 134238216⟩, .passkey
      [160, 2, 9, 1, 20, 0, 0, 8, 40, 100, 28, 60, 0, 80, 28, 40, 2, 1, 1, 0, 8, 4, 24, 36, 60, 0, 0, 9, 2, 8, 80,
      0, 8], wt_delegation (by decide), rfl, rfl, rfl, by decide +kernel⟩
  have w9 : Shared .key (.storage .items true) :=
    ⟨.key ⟨578718050080526336, 1605632, 1078397868311802605278749867262823130492152872360773894738004647649328⟩,
      .items ⟨some 0, 4, 10, 134545432, [.add [24, 0, 48, 160, 4, 48, 128, 160, 28, 192, 0, 3, 32, 4, 7, 5, 5, 60,
      60, 4, 2, 4, 36, 4, 80, 0, 3, 1, 0, 0, 40, 0], .add []]⟩, wt_key (by decide), ⟨⟨by simp, by decide⟩,
      by decide⟩, rfl, rfl, by decide +kernel⟩
  have w10 : Shared .key (.storage .items false) :=
    ⟨.key ⟨577588860501100801, 268730368,
      34940354174212110658735184418532580533327780215351150065301103124153444⟩, .items ⟨none, 576, 25, 67240488,
      [.add [4, 16, 100, 4, 32, 8, 1, 0, 0, 0, 4, 1, 9, 48, 4, 5, 1, 28, 80, 20, 8, 192, 192, 0, 100, 8, 0, 8,
      128, 2, 16, 5], .add []]⟩, wt_key (by decide), ⟨⟨by simp, by decide⟩, by decide⟩, rfl, rfl, by
      decide +kernel⟩
  have w11 : Shared .key (.storage .upsert true) :=
    ⟨.key ⟨2307813368444238880, 2148270360,
      1894281127114635479106745329131536032395759711800210638100353426502242050056⟩, .upsert ⟨some 8, 15, 1,
      29360640, 201398304, [8, 160, 40, 8, 7, 24, 0, 1, 12, 160, 12, 9, 1, 0, 0, 0, 24, 0, 8, 7, 192, 128, 128, 2,
      0, 0, 8, 20, 8, 32, 48, 4]⟩, wt_key (by decide), ⟨⟨by simp, by decide⟩, by decide⟩, rfl, rfl, by
      decide +kernel⟩
  have w12 : Shared .key (.storage .upsert false) :=
    ⟨.key ⟨324259174177515528, 2147745800,
      12677127940857670664630651489195032297360762717486894213141954250976835937312⟩, .upsert ⟨none, 2, 10,
      2147483708, 67110916, [32, 36, 20, 128, 28, 60, 1, 1, 32, 0, 8, 8, 0, 80, 32, 1, 48, 7, 0, 3, 0, 0, 0, 2,
      16, 20, 20, 80, 9, 0, 7, 28]⟩, wt_key (by decide), ⟨⟨by simp, by decide⟩, by decide⟩, rfl, rfl, by
      decide +kernel⟩
  have w13 : Shared .handle (.storage .items true) :=
    ⟨.handle ⟨[60, 4, 0], 10498096⟩, .items ⟨some 3, 15, 1, 2687512576, []⟩, wt_handle (by decide), ⟨⟨by simp,
      by decide⟩, by decide⟩, rfl, rfl, by decide +kernel⟩
  have w14 : Shared .handle (.storage .items false) :=
    ⟨.handle ⟨[16, 1], 262180⟩, .items ⟨none, 2, 4, 67118081, []⟩, wt_handle (by decide), ⟨⟨by simp, by decide⟩,
      by decide⟩, rfl, rfl, by decide +kernel⟩
  have w15 : Shared .handle (.storage .upsert true) :=
    ⟨.handle ⟨[128, 128, 60, 1], 266268⟩, .upsert ⟨some 4, 32, 32, 15, 68164609, []⟩, wt_handle (by decide),
      ⟨⟨by simp, by decide⟩, by decide⟩, rfl, rfl, by decide +kernel⟩
  have w16 : Shared .handle (.storage .upsert false) :=
    ⟨.handle ⟨[60, 8, 24], 66836⟩, .upsert ⟨none, 3, 15, 2, 17110040, []⟩, wt_handle (by decide), ⟨⟨by simp,
      by decide⟩, by decide⟩, rfl, rfl, by decide +kernel⟩
  have w17 : Shared .handle (.storage .delete true) :=
    ⟨.handle ⟨[60, 4, 0], 127938608⟩, .delete ⟨some 3, 15, 1, 0, 127938608⟩, wt_handle (by decide), ⟨⟨by simp,
      by decide⟩, by decide⟩, rfl, rfl, by decide +kernel⟩
  have w18 : Shared .handle (.storage .delete false) :=
    ⟨.handle ⟨[20, 40], 19162112⟩, .delete ⟨none, 2, 5, 10, 19162112⟩, wt_handle (by decide), ⟨⟨by simp,
      by decide⟩, by decide⟩, rfl, rfl, by decide +kernel⟩
  have w19 : Shared .handle .passkey :=
    ⟨.handle ⟨[97, 98, 99, 100, 101, 102, 103, 104, 105, 106, 107, 108, 109, 110, 111, 112, 113, 114, 115, 116,
      117, 118, 119, 120, 121, 122, 97, 98], 5⟩, .passkey [112, 97, 98, 99, 100, 101, 102, 103, 104, 105, 106,
      107, 108, 109, 110, 111, 112, 113, 114, 115, 116, 117, 118, 119, 120, 121, 122, 97, 98, 5, 0, 0, 0],
      wt_handle (by decide), rfl, rfl, rfl, by decide +kernel⟩
  have w20 : Shared (.storage .items true) .passkey :=
    ⟨.items ⟨some 2, 10241, 0, 458768, [.delete 5125, .delete 8192, .add [0, 0], .delete 20, .add [0, 8, 128, 0],
      .delete 10240, .add []]⟩, .passkey [8, 5, 160, 0, 16, 0, 7, 0, 28, 1, 5, 20, 1, 0, 32, 0, 8, 0, 0, 1, 20, 0,
      0, 16, 0, 8, 128, 0, 1, 0, 40, 0, 0], ⟨⟨by simp, by decide⟩, by decide⟩, rfl, rfl, rfl, by decide +kernel⟩
  have w21 : Shared (.storage .items false) .passkey :=
    ⟨.items ⟨none, 1, 1, 3147521, [.add [], .add [80, 0, 5, 12, 0, 12, 20, 40, 128, 8, 0, 80, 2, 2, 8, 0, 0, 0, 4,
      80], .add []]⟩, .passkey [4, 4, 1, 7, 48, 0, 12, 0, 0, 0, 80, 80, 0, 5, 12, 0, 12, 20, 40, 128, 8, 0, 80, 2,
      2, 8, 0, 0, 0, 4, 80, 0, 0], ⟨⟨by simp, by decide⟩, by decide⟩, rfl, rfl, rfl, by decide +kernel⟩
  have w22 : Shared (.storage .upsert true) .passkey :=
    ⟨.upsert ⟨some 2, 48, 1536, 86515712, 270807042, [20, 0, 8, 0, 36, 12, 128, 4, 1, 0, 192, 1, 0, 0, 128, 0, 36,
      60, 60, 36]⟩, .passkey [8, 192, 1, 24, 2, 128, 160, 20, 2, 48, 36, 16, 80, 20, 0, 8, 0, 36, 12, 128, 4, 1,
      0, 192, 1, 0, 0, 128, 0, 36, 60, 60, 36], ⟨⟨by simp, by decide⟩, by decide⟩, rfl, rfl, rfl, by
      decide +kernel⟩
  have w23 : Shared (.storage .upsert false) .passkey :=
    ⟨.upsert ⟨none, 0, 5, 0, 134414632, [7, 0, 4, 2, 12, 28, 1, 9, 8, 16, 0, 8, 8, 60, 128, 28, 4, 5, 8, 0, 9, 2,
      100, 40, 1]⟩, .passkey [0, 20, 0, 40, 1, 3, 8, 100, 7, 0, 4, 2, 12, 28, 1, 9, 8, 16, 0, 8, 8, 60, 128, 28,
      4, 5, 8, 0, 9, 2, 100, 40, 1], ⟨⟨by simp, by decide⟩, by decide⟩, rfl, rfl, rfl, by decide +kernel⟩
  show Shared k l
  have hs : ∀ k l : RequestKind, k.pallet ≠ l.pallet → keptApart k l = false → keptApart l k = false →
      Shared k l := by
    clear hp h1 h2 k l
    intro k l hp h1 h2
    cases k with
    | storage a v => cases a <;> cases v <;> cases l with
      | storage b w => exact absurd rfl hp
      | _ => first
        | exact absurd h1 (by decide)
        | exact absurd h2 (by decide)
        | exact w1 | exact w1.symm | exact w2 | exact w2.symm | exact w3 | exact w3.symm | exact w4 | exact w4.symm
        | exact w5 | exact w5.symm | exact w6 | exact w6.symm | exact w7 | exact w7.symm | exact w8 | exact w8.symm
        | exact w9 | exact w9.symm | exact w10 | exact w10.symm | exact w11 | exact w11.symm | exact w12
        | exact w12.symm | exact w13 | exact w13.symm | exact w14 | exact w14.symm | exact w15 | exact w15.symm
        | exact w16 | exact w16.symm | exact w17 | exact w17.symm | exact w18 | exact w18.symm | exact w19
        | exact w19.symm | exact w20 | exact w20.symm | exact w21 | exact w21.symm | exact w22 | exact w22.symm
        | exact w23 | exact w23.symm
    | _ => cases l with
      | storage b w => cases b <;> cases w <;> first
        | exact absurd h1 (by decide)
        | exact absurd h2 (by decide)
        | exact w1 | exact w1.symm | exact w2 | exact w2.symm | exact w3 | exact w3.symm | exact w4 | exact w4.symm
        | exact w5 | exact w5.symm | exact w6 | exact w6.symm | exact w7 | exact w7.symm | exact w8 | exact w8.symm
        | exact w9 | exact w9.symm | exact w10 | exact w10.symm | exact w11 | exact w11.symm | exact w12
        | exact w12.symm | exact w13 | exact w13.symm | exact w14 | exact w14.symm | exact w15 | exact w15.symm
        | exact w16 | exact w16.symm | exact w17 | exact w17.symm | exact w18 | exact w18.symm | exact w19
        | exact w19.symm | exact w20 | exact w20.symm | exact w21 | exact w21.symm | exact w22 | exact w22.symm
        | exact w23 | exact w23.symm
      | _ => first
        | exact absurd rfl hp
        | exact absurd h1 (by decide)
        | exact absurd h2 (by decide)
        | exact w1 | exact w1.symm | exact w2 | exact w2.symm | exact w3 | exact w3.symm | exact w4 | exact w4.symm
        | exact w5 | exact w5.symm | exact w6 | exact w6.symm | exact w7 | exact w7.symm | exact w8 | exact w8.symm
        | exact w9 | exact w9.symm | exact w10 | exact w10.symm | exact w11 | exact w11.symm | exact w12
        | exact w12.symm | exact w13 | exact w13.symm | exact w14 | exact w14.symm | exact w15 | exact w15.symm
        | exact w16 | exact w16.symm | exact w17 | exact w17.symm | exact w18 | exact w18.symm | exact w19
        | exact w19.symm | exact w20 | exact w20.symm | exact w21 | exact w21.symm | exact w22 | exact w22.symm
        | exact w23 | exact w23.symm
  exact hs k l hp h1 h2

/-- Hypotheses met. -/
example : keptApart (Request.key ⟨1, 50, 7⟩).kind (Request.handle exClaim).kind = true ∧
    RequestKind.pallet .delegation ≠ RequestKind.pallet (.storage .upsert true) ∧
    keptApart .delegation (.storage .upsert true) = false ∧ keptApart (.storage .upsert true) .delegation = false := by
  decide

/-! ## What the values in use keep apart -/

theorem byte_eq (x y : Nat) : UInt8.ofNat (x % 256) = UInt8.ofNat (y % 256) ↔ x % 256 = y % 256 := by
  constructor
  · intro h
    have := congrArg UInt8.toNat h
    simpa using this
  · intro h; rw [h]

/-- The forms of a compact number below `2 ^ 32`. -/
theorem compact_cases (n : Nat) (hn : n < 2 ^ 32) :
    (n < 64 ∧ Scale.compact n = Scale.leBytes 1 (n * 4)) ∨
    (64 ≤ n ∧ n < 16384 ∧ Scale.compact n = Scale.leBytes 2 (n * 4 + 1)) ∨
    (16384 ≤ n ∧ n < 2 ^ 30 ∧ Scale.compact n = Scale.leBytes 4 (n * 4 + 2)) ∨
    (2 ^ 30 ≤ n ∧ Scale.compact n = Scale.leBytes 1 3 ++ Scale.leBytes 4 n) := by
  unfold Scale.compact
  split
  · left; constructor <;> first | omega | rfl
  · split
    · right; left; refine ⟨by omega, by omega, rfl⟩
    · split
      · right; right; left; refine ⟨by omega, by omega, rfl⟩
      · right; right; right; exact ⟨by omega, rfl⟩

theorem compact64_cases (n : Nat) (hn : n < 2 ^ 56) :
    (n < 64 ∧ Scale.compact64 n = Scale.leBytes 1 (n * 4)) ∨
    (64 ≤ n ∧ n < 16384 ∧ Scale.compact64 n = Scale.leBytes 2 (n * 4 + 1)) ∨
    (16384 ≤ n ∧ n < 2 ^ 30 ∧ Scale.compact64 n = Scale.leBytes 4 (n * 4 + 2)) ∨
    (2 ^ 30 ≤ n ∧ n < 2 ^ 32 ∧ Scale.compact64 n = Scale.leBytes 1 3 ++ Scale.leBytes 4 n) ∨
    (2 ^ 32 ≤ n ∧ n < 2 ^ 40 ∧ Scale.compact64 n = Scale.leBytes 1 7 ++ Scale.leBytes 5 n) ∨
    (2 ^ 40 ≤ n ∧ n < 2 ^ 48 ∧ Scale.compact64 n = Scale.leBytes 1 11 ++ Scale.leBytes 6 n) ∨
    (2 ^ 48 ≤ n ∧ n < 2 ^ 56 ∧ Scale.compact64 n = Scale.leBytes 1 15 ++ Scale.leBytes 7 n) := by
  unfold Scale.compact64 Scale.bigLen
  by_cases h1 : n < 2 ^ 6
  · left; exact ⟨by omega, by rw [if_pos h1]⟩
  by_cases h2 : n < 2 ^ 14
  · right; left; exact ⟨by omega, by omega, by rw [if_neg h1, if_pos h2]⟩
  by_cases h3 : n < 2 ^ 30
  · right; right; left; exact ⟨by omega, by omega, by rw [if_neg h1, if_neg h2, if_pos h3]⟩
  rw [if_neg h1, if_neg h2, if_neg h3]
  right; right; right
  by_cases h4 : n < 2 ^ 32
  · left; exact ⟨by omega, h4, by simp only [if_pos h4]; rfl⟩
  by_cases h5 : n < 2 ^ 40
  · right; left; exact ⟨by omega, h5, by simp only [if_neg h4, if_pos h5]; rfl⟩
  by_cases h6 : n < 2 ^ 48
  · right; right; left; exact ⟨by omega, h6, by simp only [if_neg h4, if_neg h5, if_pos h6]; rfl⟩
  · right; right; right; exact ⟨by omega, hn, by simp only [if_neg h4, if_neg h5, if_neg h6, if_pos hn]; rfl⟩

/-- Reading a storage payload out of bytes that begin with an account number below `2 ^ 32` in eight bytes. -/
theorem storage_in_u64 (M : Nat) (hM : M < 2 ^ 32) (x0 x1 : Nat) (hx1 : x1 < 256) (tl : Bytes)
    (m : Option MsaId) (hm : ∀ a ∈ m, a < 2 ^ 56) (s : Nat) (hs0 : 0 < s) (hs : s < 2 ^ 14) (pg : Option Nat)
    (cp : Bytes) (hcp : (pg = none ∧ cp = []) ∨ ∃ p, pg = some p ∧ p < 64 ∧ cp = Scale.compact p)
    (h : Nat) (hh : h < 2 ^ 32) (e : Nat) (he : e < 2 ^ 32) (t : Bytes)
    (heq : Stateful.encodeMsa m ++ (Scale.compact s ++ (cp ++ (Scale.compact h ++ (Scale.leBytes 4 e ++ t)))) =
      Scale.leBytes 8 M ++ (UInt8.ofNat (x0 % 256) :: UInt8.ofNat (x1 % 256) :: tl)) :
    e < 2 ^ 16 ∨ 2 ^ 24 ≤ e ∨
      (∃ a, m = some a ∧ M % 65536 = 4 * a + 1) ∧ pg = some 0 ∧ h = 0 ∧ x1 = 0 ∧ x0 ≠ 0 := by
  have hs' := compact_cases s (by omega)
  have hh' := compact_cases h hh
  generalize Scale.compact s = cs at *
  generalize Scale.compact h = ch at *
  have hp' : (pg = none ∧ cp = []) ∨ ∃ p, pg = some p ∧ p < 64 ∧ cp = Scale.leBytes 1 (p * 4) := by
    rcases hcp with h | ⟨p, rfl, hp, rfl⟩
    · exact .inl h
    · right
      rcases compact_cases p (by omega) with h | h | h | h
      · exact ⟨p, rfl, h⟩
      all_goals exfalso; omega
  clear hcp
  have hs2 : (s < 64 ∧ cs = Scale.leBytes 1 (s * 4)) ∨ (64 ≤ s ∧ cs = Scale.leBytes 2 (s * 4 + 1)) := by
    rcases hs' with h | h | h | h
    · exact .inl h
    · exact .inr ⟨h.1, h.2.2⟩
    all_goals exfalso; omega
  clear hs'
  cases m with
  | none =>
    simp only [Stateful.encodeMsa, List.nil_append] at heq
    rcases hs2 with ⟨h1, rfl⟩ | ⟨h1, rfl⟩ <;> rcases hp' with ⟨rfl, rfl⟩ | ⟨p, rfl, h2, rfl⟩ <;>
      rcases hh' with ⟨h3, rfl⟩ | ⟨h3, h4, rfl⟩ | ⟨h3, h4, rfl⟩ | ⟨h3, rfl⟩ <;>
      simp only [Scale.leBytes, List.nil_append, List.cons_append, List.cons.injEq, byte_eq] at heq <;>
      omega
  | some a =>
    have ha := hm a rfl
    have hm' := compact64_cases a ha
    simp only [Stateful.encodeMsa] at heq
    generalize Scale.compact64 a = ca at *
    rcases hs2 with ⟨h1, rfl⟩ | ⟨h1, rfl⟩ <;> rcases hp' with ⟨rfl, rfl⟩ | ⟨p, rfl, h2, rfl⟩ <;>
      rcases hh' with ⟨h3, rfl⟩ | ⟨h3, h4, rfl⟩ | ⟨h3, h4, rfl⟩ | ⟨h3, rfl⟩ <;>
      rcases hm' with ⟨h5, rfl⟩ | ⟨h5, h6, rfl⟩ | ⟨h5, h6, rfl⟩ | ⟨h5, h6, rfl⟩ |
        ⟨h5, h6, rfl⟩ | ⟨h5, h6, rfl⟩ | ⟨h5, h6, rfl⟩ <;>
      simp only [Scale.leBytes, List.nil_append, List.cons_append, List.cons.injEq, byte_eq] at heq <;>
      first
      | omega
      | (by_cases g1 : e < 2 ^ 16
         · exact .inl g1
         by_cases g2 : 2 ^ 24 ≤ e
         · exact .inr (.inl g2)
         right; right; refine ⟨⟨a, rfl, by omega⟩, ?_, by omega, by omega, by omega⟩; congr 1; omega)
/-- Account (if named), schema, page (if any), target hash and expiration of a storage request. -/
def Request.storageFields : Request → Option (Option MsaId × SchemaId × Option Nat × Nat × BlockNumber)
  | .items p => some (p.msaId, p.schemaId, none, p.targetHash, p.expiration)
  | .upsert p => some (p.msaId, p.schemaId, some p.pageId, p.targetHash, p.expiration)
  | .delete p => some (p.msaId, p.schemaId, some p.pageId, p.targetHash, p.expiration)
  | _ => none

theorem storage_layout {r : Request} {m : Option MsaId} {s : SchemaId} {pg : Option Nat} {th : Nat} {e : BlockNumber}
    (hr : r.WT) (hf : r.storageFields = some (m, s, pg, th, e)) (hp : ∀ p ∈ pg, p < 64) :
    th < 2 ^ 32 ∧ e < 2 ^ 32 ∧ ∃ cp t, ((pg = none ∧ cp = []) ∨ ∃ p, pg = some p ∧ p < 64 ∧ cp = Scale.compact p) ∧
      r.bytes = Msa.wrap (Stateful.encodeMsa m ++ (Scale.compact s ++ (cp ++ (Scale.compact th ++
        (Scale.leBytes 4 e ++ t))))) := by
  cases r with
  | items p =>
    simp only [Request.storageFields, Option.some.injEq, Prod.mk.injEq] at hf
    obtain ⟨rfl, rfl, rfl, rfl, rfl⟩ := hf
    exact ⟨hr.2.1, hr.2.2, [], _, .inl ⟨rfl, rfl⟩, rfl⟩
  | upsert p =>
    simp only [Request.storageFields, Option.some.injEq, Prod.mk.injEq] at hf
    obtain ⟨rfl, rfl, rfl, rfl, rfl⟩ := hf
    exact ⟨hr.2.2.1, hr.2.2.2, _, _, .inr ⟨_, rfl, hp _ rfl, rfl⟩, rfl⟩
  | delete p =>
    simp only [Request.storageFields, Option.some.injEq, Prod.mk.injEq] at hf
    obtain ⟨rfl, rfl, rfl, rfl, rfl⟩ := hf
    exact ⟨hr.2.2.1, hr.2.2.2, _, [], .inr ⟨_, rfl, hp _ rfl, rfl⟩, by
      simp [Request.bytes, Stateful.DeletePayload.encode, Scale.u32]; rfl⟩
  | _ => cases hf

/-- C104, partial: the addition of a key to an account below `2 ^ 32` has the bytes of a storage request, for that
account if it names one, for an existing schema below `2 ^ 14` and a page below 64, only if this expires before block
`2 ^ 16` or after block `2 ^ 24`. In between no signature for the former is accepted for the latter, as requests
expire within a fixed time. Missing: other blocks and numbers (`C104_kinds_collide`). -/
theorem C104_key_storage_partial (q : Msa.AddKeyData) (hq : q.msaId < 2 ^ 32) (r : Request) (hr : r.WT)
    (m : Option MsaId) (s : SchemaId) (pg : Option Nat) (th : Nat) (e : BlockNumber)
    (hf : r.storageFields = some (m, s, pg, th, e)) (hm : ∀ a ∈ m, a = q.msaId) (hs0 : 0 < s) (hs : s < 2 ^ 14)
    (hp : ∀ p ∈ pg, p < 64) (he1 : 2 ^ 16 ≤ e) (he2 : e < 2 ^ 24) : (Request.key q).bytes ≠ r.bytes := by
  intro hb
  obtain ⟨hth, he, cp, t, hcp, hl⟩ := storage_layout hr hf hp
  rw [hl] at hb
  have hb : q.encode = _ := Msa.wrap_inj hb
  have := storage_in_u64 q.msaId hq q.expiration (q.expiration / 256 % 256) (by omega)
    (Scale.leBytes 2 (q.expiration / 256 / 256) ++ Scale.leBytes 32 q.newPublicKey) m
    (fun a ha => by have := hm a ha; omega) s hs0 hs pg cp hcp th hth e he t (by
      rw [← hb]
      simp [Msa.AddKeyData.encode, Scale.u64, Scale.u32, Scale.leBytes])
  rcases this with h | h | ⟨⟨a, ha, h⟩, -⟩
  · omega
  · omega
  · have := hm a ha
    omega

/-- C104, partial: a delegation to an account below `2 ^ 32`, of fewer than 64 schemas of which the first has no
multiple of 256 as its number, has the bytes of a storage request for an account below `2 ^ 56`, an existing schema
below `2 ^ 14` and a page below 64 only if this expires before block `2 ^ 16` or after block `2 ^ 24`. Missing: other
blocks and numbers (`C104_kinds_collide`). -/
theorem C104_delegation_storage_partial (q : Msa.AddProvider) (hq : q.authorizedMsaId < 2 ^ 32)
    (hn : q.schemaIds.length < 64) (hz : ∀ id ∈ q.schemaIds.head?, id % 256 ≠ 0) (r : Request) (hr : r.WT)
    (m : Option MsaId) (s : SchemaId) (pg : Option Nat) (th : Nat) (e : BlockNumber)
    (hf : r.storageFields = some (m, s, pg, th, e)) (hm : ∀ a ∈ m, a < 2 ^ 56) (hs0 : 0 < s) (hs : s < 2 ^ 14)
    (hp : ∀ p ∈ pg, p < 64) (he1 : 2 ^ 16 ≤ e) (he2 : e < 2 ^ 24) : (Request.delegation q).bytes ≠ r.bytes := by
  intro hb
  obtain ⟨hth, he, cp, t, hcp, hl⟩ := storage_layout hr hf hp
  rw [hl] at hb
  have hb : q.encode = _ := Msa.wrap_inj hb
  obtain ⟨M, ids, x⟩ := q
  simp only [Msa.AddProvider.encode, Scale.vecOf, compact_small hn] at hb
  have h4 : UInt8.ofNat (4 * ids.length) = UInt8.ofNat (4 * ids.length % 256) := by
    have hn : ids.length < 64 := hn
    rw [Nat.mod_eq_of_lt]; omega
  cases ids with
  | nil =>
    have := storage_in_u64 M hq 0 (x % 256) (by omega) (Scale.leBytes 3 (x / 256)) m hm s hs0 hs pg cp hcp th hth e
      he t (by rw [← hb]; simp [Scale.u64, Scale.u32, Scale.leBytes])
    rcases this with h | h | ⟨-, -, -, -, h⟩
    · omega
    · omega
    · exact h rfl
  | cons id ids =>
    have := storage_in_u64 M hq (4 * (id :: ids).length) (id % 256) (by omega)
      (UInt8.ofNat (id / 256 % 256) :: ((ids.map Scale.u16).flatten ++ Scale.u32 x)) m hm s hs0 hs pg cp hcp th hth e
      he t (by rw [← hb, h4]; simp [Scale.u64, Scale.u16, Scale.leBytes])
    have hid := hz id rfl
    rcases this with h | h | ⟨-, -, -, h, -⟩
    · omega
    · omega
    · omega

/-- Hypotheses met: account 70000 adds a key, or delegates schemas 5 and 6; somebody writes page 3 of schema 7. -/
example : (Request.upsert ⟨none, 7, 3, 9, 5000000, [1]⟩).storageFields = some (none, 7, some 3, 9, 5000000) ∧
    (∀ id ∈ (Msa.AddProvider.mk 70000 [5, 6] 5000000).schemaIds.head?, id % 256 ≠ 0) ∧
    2 ^ 16 ≤ 5000000 ∧ 5000000 < 2 ^ 24 := by
  refine ⟨rfl, ?_, by decide, by decide⟩
  simp

end Verif.Chain
