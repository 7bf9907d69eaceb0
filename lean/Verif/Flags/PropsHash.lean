import Verif.Flags.ModelHash
import Verif.Flags.Props

/-! # Hashes of flags (C136) -/

namespace Verif.Flags
open Verif.Cpp

/-- Flags that two programs compute, in any way, have the same hash if the programs denote the same set of enumerators; if `std::hash` of the integer type takes no value twice, flags of
different sets have different hashes. -/
theorem C136_hash_partial {c : Cfg} (hl : c.last ≤ 63) (stdHash : c.BitField → Nat) {os os' : List Op} (ho : ∀ o ∈ os, o.Ok c) (ho' : ∀ o ∈ os', o.Ok c) :
    ∃ v v' h h', runAll c os 0#c.width = .ok v ∧ runAll c os' 0#c.width = .ok v' ∧ hashFlags stdHash false v = some h ∧ hashFlags stdHash false v' = some h' ∧
      (denoteAll c os ∅ = denoteAll c os' ∅ → h = h') ∧ ((∀ x y, stdHash x = stdHash y → x = y) → h = h' → denoteAll c os ∅ = denoteAll c os' ∅) := by
  obtain ⟨v, k1, k2⟩ := C44_history_partial hl os ho
  obtain ⟨v', m1, m2⟩ := C44_history_partial hl os' ho'
  have heq := (C44_observers hl k2 m2).2.1
  have hb : eq v v' = true ↔ v = v' := by simp [eq]
  rw [hb] at heq
  have hi : ∀ x : c.BitField, toInteger c.width x = x := fun x => by simp [toInteger]
  refine ⟨v, v', _, _, k1, m1, rfl, rfl, fun e => by rw [heq.mpr e], fun hinj e => heq.mp ?_⟩
  have := hinj _ _ e
  rwa [hi, hi] at this

/-- The hash cannot be called on a const function object, so no unordered container of flags compiles, for any enumeration and any flags. -/
theorem C136_const_violated (c : Cfg) (stdHash : c.BitField → Nat) (flags : c.BitField) (buckets : Nat) :
    hashFlags stdHash true flags = none ∧ bucket stdHash buckets flags = none ∧ (wrapped stdHash flags).isSome = true := ⟨rfl, rfl, rfl⟩

/-- Two ways to the same set: `A | C`, and `(A | B | C) & ~B`. -/
example : ∃ v v', runAll cfg12 [.assign (.enumUnion 0 2)] 0 = .ok v ∧
    runAll cfg12 [.assign (.enumUnion 0 1), .setFlags (.single 2), .interAssign (.enumCompl 1)] 0 = .ok v' ∧ hashFlags (fun x => x.toNat) false v = hashFlags (fun x => x.toNat) false v' :=
  ⟨5, 5, by decide +kernel, by decide +kernel, rfl⟩

end Verif.Flags
