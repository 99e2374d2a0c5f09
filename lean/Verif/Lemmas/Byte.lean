/-!
# Deciding statements about all bytes
-/

namespace Verif

/-- A decidable property of bytes can be decided for all bytes. -/
instance decidableForallByte (p : UInt8 → Prop) [DecidablePred p] : Decidable (∀ c, p c) :=
  decidable_of_iff (∀ n : Fin 256, p (UInt8.ofNat n.1))
    ⟨fun h c => by
      have := h ⟨c.toNat, c.toNat_lt⟩
      simpa using this,
    fun h _ => h _⟩

instance decidableExistsByte (p : UInt8 → Prop) [DecidablePred p] : Decidable (∃ c, p c) :=
  decidable_of_iff (∃ n : Fin 256, p (UInt8.ofNat n.1))
    ⟨fun ⟨_, h⟩ => ⟨_, h⟩, fun ⟨c, h⟩ => ⟨⟨c.toNat, c.toNat_lt⟩, by simpa using h⟩⟩

end Verif
