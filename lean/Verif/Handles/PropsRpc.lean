import Verif.Handles.Rpc
import Verif.Handles.PropsFound
import Verif.Handles.PropsAccept
/-!
# C161: asking a node about handles
-/

namespace Verif.Handles

/-! ## Specification -/

/-- What the node checks of a name. -/
structure Passes (cfg : Config) (text : Str) : Prop where
  bytes : (utf8Encode text).length ≤ 32
  chars : 3 ≤ text.length ∧ text.length ≤ 20
  blocked : ∀ c ∈ text, c ∉ blockedCharacters
  reserved : text ∉ reservedWords
  supp : supported (canonical cfg text) = true

/-- The name that an operation asks for. -/
def wanted : Op → Option Bytes
  | .claim _ _ p => some p.baseHandle
  | .change _ _ p => some p.baseHandle
  | .retire _ => none
  | .retireWrapped _ => none

/-- C161 in full: what a node reports as the handle of an account, name, dot and number, leads back to the account when
the node is asked for it. -/
def C161_full : Prop :=
  ∀ (cfg : Config) (lo hi : Nat) (hist : List Step), RangeOk hi → Fixed lo hi hist →
    ∀ (m : MsaId) (name : Str) (k : Bytes) (x : Nat), rpcHandle cfg (run cfg .init hist) m = some (utf8Encode name, k, x) →
      rpcMsa cfg (run cfg .init hist) (name ++ '.' :: dec x) = .ok (some m)

/-! ## Theorems -/

/-- C161: the node answers for every text whether it passes the checks of a name; texts of more than 32 bytes do not. -/
theorem C161_validate (cfg : Config) (text : Str) : rpcValidate cfg text = true ↔ Passes cfg text := by
  unfold rpcValidate validateHandle
  by_cases hl : (utf8Encode text).length ≤ bytesMax
  · simp only [if_pos hl]
    constructor
    · intro h
      split at h
      · rename_i str hs
        simp only [validateBaseHandle, bind_eq_ok_iff, ensure_eq_ok_iff, okOr_eq_ok_iff, pure_eq_ok_iff,
          utf8Decode_encode] at hs
        obtain ⟨base, hd, _, h1, _, h2, _, h3, rfl⟩ := hs
        cases hd
        refine ⟨hl, h1, ?_, ?_, ?_⟩
        · intro c hc hb
          simp only [containsBlocked, List.any_eq_false, List.contains_iff_mem] at h3
          exact h3 c hc hb
        · intro hb
          simp only [isReserved] at h2
          rw [← Bool.not_eq_true, List.contains_iff_mem] at h2
          exact h2 hb
        · unfold validateSupported ensure at h
          split at h
          · assumption
          · exact absurd h (by simp [Except.isOk, Except.toBool])
      · exact absurd h (by simp)
    · intro h
      have hv : validateBaseHandle (utf8Encode text) = .ok text := by
        simp only [validateBaseHandle, bind_eq_ok_iff, ensure_eq_ok_iff, okOr_eq_ok_iff, pure_eq_ok_iff,
          utf8Decode_encode]
        refine ⟨text, rfl, (), h.chars, (), ?_, (), ?_, rfl⟩
        · unfold isReserved
          rw [← Bool.not_eq_true, List.contains_iff_mem]
          exact h.reserved
        · simp only [containsBlocked, List.any_eq_false, List.contains_iff_mem]
          exact h.blocked
      rw [hv]
      simp only [validateSupported, canonicalBase_eq, ensure, h.supp]
      rfl
  · simp only [if_neg hl]
    constructor
    · intro h
      exact absurd h (by
        simp [validateBaseHandle, utf8Decode, utf8DecodeAux, okOr, ensure, charsMin, bind, Except.bind])
    · exact fun h => absurd h.bytes hl

/-- C161: a name that the node does not accept cannot be claimed and cannot be changed to. -/
theorem C161_refused (cfg : Config) (s s' : State) (x : Step) (text : Str) (hw : wanted x.op = some (utf8Encode text))
    (h : dispatch cfg s x = .ok s') : rpcValidate cfg text = true := by
  rw [C161_validate]
  have key : ∀ {env s0 m p s1 d base i y}, p.baseHandle = utf8Encode text → p.baseHandle.length ≤ 32 →
      Claimed cfg env s0 m p s1 d base i y → Passes cfg text := by
    intro env s0 m p s1 d base i y hp hl hc
    have hd := hc.decoded
    rw [hp, utf8Decode_encode] at hd
    cases hd
    exact ⟨hp ▸ hl, hc.chars, hc.blocked, hc.reserved, hc.supp⟩
  have he := apply_eff cfg s x
  generalize apply cfg s x = s2 at he
  cases he with
  | fail _ e hf => rw [hf] at h; cases h
  | claim hlen _ _ _ hc => simp only [wanted, Option.some.injEq] at hw; exact key hw hlen hc
  | change hlen _ _ _ _ hc => simp only [wanted, Option.some.injEq] at hw; exact key hw hlen hc
  | retire => simp [wanted] at hw
  | retireWrapped => simp [wanted] at hw

/-- C161: the question for suffixes is refused just for texts of more than 32 bytes. Otherwise the node names as many of
the next suffixes as are asked for, one if no number is given, but never more than 100; whoever asks for fewer is told
the first of them. -/
theorem C161_suffixes (cfg : Config) (env : Env) (s : State) (text : Str) (count : Option Nat) :
    ((∃ e, rpcSuffixes cfg env s text count = .error e) ↔ 32 < (utf8Encode text).length) ∧
    ∀ l all, rpcSuffixes cfg env s text count = .ok l → rpcSuffixes cfg env s text (some 100) = .ok all →
      l = all.take (match count with | none => 1 | some n => n) ∧ l.length ≤ 100 := by
  unfold rpcSuffixes
  by_cases hl : (utf8Encode text).length ≤ bytesMax
  · simp only [if_pos hl]
    refine ⟨⟨fun ⟨e, h⟩ => (by cases h), fun h => absurd hl (by unfold bytesMax; omega)⟩, ?_⟩
    intro l all h h'
    cases h
    cases h'
    simp only [nextSuffixes, collect_full, maxSuffixes, Option.getD_some, Nat.min_self, List.take_take]
    refine ⟨?_, ?_⟩
    · cases count <;> rfl
    · rw [List.length_take]
      omega
  · simp only [if_neg hl]
    refine ⟨⟨fun _ => (by unfold bytesMax at hl; omega), fun _ => ⟨.invalidHandle, trivial⟩⟩, ?_⟩
    intro l all h
    cases h

/-- C161: as many suffixes as are asked for are named if as many are left, and they are those that the next claims get:
with the theorems of C33. -/
theorem C161_next_partial (cfg : Config) (lo hi : Nat) (hr : RangeOk hi) (before hist : List Step)
    (hf : Fixed lo hi (before ++ hist)) (name : Str) (hb : (utf8Encode name).length ≤ 32)
    (hne : canonical cfg name ≠ []) (hlen : (utf8Encode (canonical cfg name)).length ≤ 32)
    (env : Env) (henv : env.lo = lo ∧ env.hi = hi) (n : Nat) (hn : n ≤ 100) :
    ∃ l, rpcSuffixes cfg env (run cfg .init before) name (some n) = .ok l ∧
      l.length = min n (hi + 1 - lo - (assignedTo cfg (run cfg .init before) (canonical cfg name)).length) ∧
      ∀ k, k < n → ∀ x, ((assignedTo cfg (run cfg .init (before ++ hist)) (canonical cfg name)).drop
          (assignedTo cfg (run cfg .init before) (canonical cfg name)).length)[k]? = some x → l[k]? = some x := by
  have hm : min n 100 = n := by omega
  refine ⟨nextSuffixes cfg env (run cfg .init before) (utf8Encode name) n, ?_, ?_, ?_⟩
  · unfold rpcSuffixes
    simp only [if_pos (show (utf8Encode name).length ≤ bytesMax from hb), Option.getD_some, maxSuffixes, hm]
  · exact C33_number_partial cfg lo hi hr before (fun x hx => hf x (by simp [hx])) name n hne hlen env henv
  · intro k hk x hx
    exact C33_preview_partial cfg lo hi hr before hist hf name n hne hlen env henv k hk x hx

/-- C161: the question for an account is refused just for texts of more than 38 bytes, and no account has such a handle:
every handle that the node reports can be asked for, and leads to the account that has it if the
canonical name reported is not empty. Missing: names whose canonical form has more than 32 bytes
(`C161_full_false`). -/
theorem C161_back_partial (cfg : Config) (lo hi : Nat) (hr : RangeOk hi) (hist : List Step) (hf : Fixed lo hi hist)
    (m : MsaId) (name : Str) (k : Bytes) (x : Nat)
    (h : rpcHandle cfg (run cfg .init hist) m = some (utf8Encode name, k, x)) :
    (∃ r, rpcMsa cfg (run cfg .init hist) (name ++ '.' :: dec x) = .ok r) ∧
    (k ≠ [] → rpcMsa cfg (run cfg .init hist) (name ++ '.' :: dec x) = .ok (some m)) := by
  have hinv := inv_run hr hist (inv_init cfg lo hi) hf
  have hh := h
  unfold rpcHandle at h hh
  simp only [handleForMsa, Option.bind_eq_bind, Option.bind_eq_some_iff, Option.some.injEq, Prod.mk.injEq] at h
  obtain ⟨⟨d, e⟩, hd, str, h1, ⟨base, y⟩, h2, h3, h4, h5⟩ := h
  obtain rfl := utf8Encode_inj h3
  obtain rfl : y = x := h5
  have hp : partsOf d = some (base, y) := by simp [partsOf, h1, h2]
  obtain ⟨hv, rfl, hlo, hhi, _⟩ := hinv.parts hr hd hp
  have hlen : (displayOf base y).length ≤ 38 := length_displayOf hv.bytes (by unfold RangeOk at hr; omega)
  have hrpc : rpcMsa cfg (run cfg .init hist) (base ++ '.' :: dec y) =
      .ok (msaForHandle cfg (run cfg .init hist) (displayOf base y)) := by
    unfold rpcMsa
    exact if_pos hlen
  refine ⟨⟨_, hrpc⟩, fun hk => ?_⟩
  rw [hrpc, C30_lookup_partial cfg lo hi hr hist hf m _ e _ k y hd hh hk]

/-- C161: which texts are refused. -/
theorem C161_too_long (cfg : Config) (s : State) (text : Str) :
    (∃ e, rpcMsa cfg s text = .error e) ↔ 38 < (utf8Encode text).length := by
  unfold rpcMsa
  by_cases hl : (utf8Encode text).length ≤ displayMax
  · simp only [if_pos hl]
    exact ⟨fun ⟨e, h⟩ => (by cases h), fun h => absurd hl (by unfold displayMax bytesMax; omega)⟩
  · simp only [if_neg hl]
    exact ⟨fun _ => (by unfold displayMax bytesMax at hl; omega), fun _ => ⟨.invalidHandle, trivial⟩⟩

/-- C161: an account is told only to whoever asks for a name with its canonical name, a dot and a numeral of its
suffix. -/
theorem C161_found_partial (cfg : Config) (lo hi : Nat) (hr : RangeOk hi) (hist : List Step) (hf : Fixed lo hi hist)
    (text : Str) (m : MsaId) (h : rpcMsa cfg (run cfg .init hist) text = .ok (some m)) :
    ∃ name num b x, text = name ++ '.' :: num ∧ '.' ∉ name ∧ '.' ∉ num ∧ Numeral num x ∧
      rpcHandle cfg (run cfg .init hist) m = some (b, (canonicalBase cfg name).2, x) := by
  unfold rpcMsa at h
  simp only at h
  split at h
  · simp only [Except.ok.injEq] at h
    obtain ⟨name, num, b, x, h1, h2⟩ := C157_found_partial cfg lo hi hr hist hf _ m h
    rw [utf8Decode_encode] at h1
    exact ⟨name, num, b, x, Option.some.inj h1, h2⟩
  · cases h

/-- The history of the counterexample. -/
def exKorean : List Step :=
  [⟨exEnv 1, .claim 1 1 (pl "블록체인" 50)⟩, ⟨exEnv 2, .claim 2 2 (pl "부산광역시" 60)⟩]

/-- C161 in full is false: the handle that the node reports for the first account leads to the second. -/
theorem C161_full_false : ¬ C161_full := by
  intro h
  have hf : Fixed 10 99 exKorean := by
    intro x hx
    simp only [exKorean, List.mem_cons, List.not_mem_nil, or_false] at hx
    rcases hx with rfl | rfl <;> exact ⟨rfl, rfl⟩
  have h1 : rpcHandle exCfg (run exCfg .init exKorean) 1 = some (utf8Encode "블록체인".toList, [], 54) := by
    decide +kernel
  have h2 : rpcMsa exCfg (run exCfg .init exKorean) ("블록체인".toList ++ '.' :: dec 54) = .ok (some 2) := by
    decide +kernel
  have := h exCfg 10 99 exKorean (by unfold RangeOk; omega) hf 1 "블록체인".toList [] 54 h1
  rw [h2] at this
  simp at this

/-- C161: acceptance by the node does not make a name claimable: three spaces pass the checks. -/
theorem C161_spaces :
    rpcValidate exCfg "   ".toList = true ∧
    (apply exCfg .init ⟨exEnv 1, .claim 1 1 (pl "   " 50)⟩).byMsa.get 1 = none := by decide +kernel

/-! ## Examples -/

/-- Hypotheses met: account 1 is reported with a name and found under it; a text of 39 bytes is refused; a name of 60
bytes does not pass; three suffixes are named, and one if no number is given. -/
example : rpcHandle exCfg exState 1 = some (utf8Encode "abCdEfg".toList, utf8Encode "abcdefg".toList, 16) ∧
    rpcMsa exCfg exState "abCdEfg.16".toList = .ok (some 1) ∧
    rpcMsa exCfg exState (List.replicate 39 'a') = .error .invalidHandle ∧
    rpcValidate exCfg "abcdefg".toList = true ∧
    rpcValidate exCfg "가나다라마바사아자차카타파하가나다라마바".toList = false ∧
    (rpcSuffixes exCfg (exEnv 1) .init "abcdefg".toList (some 3)) = .ok [23, 65, 16] ∧
    (rpcSuffixes exCfg (exEnv 1) .init "abcdefg".toList none) = .ok [23] := by decide +kernel

/-- A claim that succeeds. -/
example : (dispatch exCfg .init ⟨exEnv 1, .claim 1 1 (pl "Abcdefg" 50)⟩).isOk = true := by decide +kernel

end Verif.Handles
