import Verif.Stateful.Lemmas
import Verif.Hash.XxHash64
/-!
# The hash assumptions that can be computed

`HashOk` assumes five things of the hash functions. Two of them concern `twox_64`, which is XxHash64 with seed 0,
as eight little-endian bytes (sp_crypto_hashing `twox_64_into`); they are proved here of that function.
-/

namespace Verif.Stateful

/-- `twox_64`. -/
def twox64 (b : Bytes) : Bytes := Scale.leBytes 8 (XxHash64.hash 0 b)

/-- The two assumptions on `twox_64` hold; for the other hash functions the rest stays an assumption. -/
theorem hashOk_of_twox64 (cfg : Config) (ht : cfg.twox64 = twox64) (h1 : ∀ b, (cfg.keyHasher b).length = 16)
    (h2 : ∀ b, (cfg.blake b).length = 16)
    (h3 : ∀ m m', m < cfg.accounts → m' < cfg.accounts → cfg.blake (treePrefix m) = cfg.blake (treePrefix m') → m = m') :
    HashOk cfg where
  keyLen := h1
  blakeLen := h2
  twoxLen b := by rw [ht]; exact Scale.length_leBytes 8 _
  blakeInj := h3
  kinds := by rw [ht]; decide +kernel

end Verif.Stateful
