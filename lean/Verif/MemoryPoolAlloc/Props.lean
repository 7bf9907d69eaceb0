import Verif.MemoryPoolAlloc.Lemmas

/-!
# Allocation failures in memory pools (C98)

A call of `Allocate` that runs out of memory is expected to leave the pool as it was, so that the program can go on.
-/

namespace Verif.MemoryPoolAlloc
open Verif.Cpp Verif.MemoryPool

variable {α : Type}

/-- After every history of allowed calls, some of which failed, the observers show the entries made by the calls that succeeded: no object is lost, moved or changed by a
failure.  Only the number of blocks and the number of free entries count the residue. -/
theorem C98_history_partial {bs S : Nat} {p : Pool α} {a : Abs α} {s : Option Residue} (h : Runs bs S p a s) : Observed bs S p a s :=
  observed_inv h.pos h.inv

/-- Every allowed call ends normally, with the effect and the result of the specification, or with an exception.  The latter happens exactly if the call is an allocation, no
entry is free, and not all allocations of memory succeed. -/
theorem C98_call_partial {bs S : Nat} {p : Pool α} {a : Abs α} {s : Option Residue} (h : Runs bs S p a s) (g : Grants) (o : Op α) (hok : Allowed bs S a s o) :
    if isAllocation o = true ∧ (∀ i, i < a.capacity bs → a.entries i ≠ none) ∧ ¬ (g.all bs = true)
    then ∃ q, exec g S o p = .thrown q ∧ Runs bs S q a (g.residue bs)
    else ∃ q, exec g S o p = .done q (o.spec bs a).2 ∧ Runs bs S q (o.spec bs a).1 (if isClear o then none else s) := by
  rcases exec_cases h.pos h.inv g o hok with ⟨q, e, _, hc⟩ | ⟨q, e, _, h1, h2, h3, h4, _⟩
  · rw [if_neg]
    · exact ⟨q, e, .succeeded g o h hok e⟩
    · rintro ⟨h1, h2, h3⟩
      rcases hc with hc | ⟨i, hi, hc⟩ | hc
      · rw [h1] at hc; cases hc
      · exact h2 i hi hc
      · exact h3 hc
  · rw [if_pos]
    · exact ⟨q, e, .failed g o h hok e⟩
    · refine ⟨h1, fun i hi hn => h2 ⟨i, hi, hn⟩, by rw [h3]; simp⟩

/-- A failure to extend the vector of blocks changes nothing at all. -/
theorem C98_strong_partial {bs S : Nat} {p q : Pool α} {a : Abs α} {s : Option Residue} (h : Runs bs S p a s) (g : Grants) (o : Op α) (hok : Allowed bs S a s o)
    (hv : g.vector = false) (e : exec g S o p = .thrown q) : q = p := by
  rcases exec_cases h.pos h.inv g o hok with ⟨q', e', _⟩ | ⟨q', e', _, _, _, _, _, h5⟩
  · rw [e] at e'; cases e'
  · rw [e] at e'; cases e'; exact h5 hv

/-- The other failures leave a block that cannot be used.  The pool counts the entries of this block as free, but once all other entries are in use, the next `Allocate` fails for every
outcome of its allocations (enough memory included): with an assertion, or, if the storage of the block was missing, with the use of a null pointer. -/
theorem C98_next_violated {bs S : Nat} {p : Pool α} {a : Abs α} {r : Residue} (h : Runs bs S p a (some r)) (hf : ∀ i, i < a.capacity bs → a.entries i ≠ none) :
    getFreeEntryCount p = bs ∧
    (∀ (g : Grants) (base : Nat), exec g S (.allocateDefer base) p = .fail (if r = .storage then .ub else .assert)) ∧
    ∀ (g : Grants) (base : Nat) (v : α), exec g S (.allocate base v) p = .fail (if r = .storage then .ub else .assert) := by
  have hbs := h.pos
  obtain ⟨q, m, e, rp, hl⟩ := h.inv
  have hn : ¬ HasFree bs a := fun ⟨i, hi, hn⟩ => hf i hi hn
  refine ⟨?_, ?_, ?_⟩
  · have ho := (C98_history_partial h).free
    rw [ho, live_length, show (List.range (a.capacity bs)).countP a.isLive = a.capacity bs from countP_full.mpr (fun i hi => by
      have := hf i hi
      simp only [Abs.isLive]
      cases hh : a.entries i <;> simp_all)]
    simp
  · intro g base
    subst e
    simp only [exec]
    exact X.bind_fail (allocateDefer_residue rp hbs hn hl g base)
  · intro g base v
    subst e
    simp only [exec, allocate]
    apply X.bind_fail
    exact X.bind_fail (allocateDefer_residue rp hbs hn hl g base)

/-- Which failures leave such a block: those of the bitsets and of the storage.  (The call throws in all three cases.) -/
theorem C98_residue_violated {bs S : Nat} {p : Pool α} {a : Abs α} (h : Runs bs S p a none) (hf : ∀ i, i < a.capacity bs → a.entries i ≠ none) (g : Grants) (base : Nat)
    (hb : ∀ b ∈ a.bases, base + bs * S ≤ b ∨ b + bs * S ≤ base) (hv : g.vector = true)
    (hg : g.freeBits 0 ((bs + 63) / 64) = false ∨ g.occupiedBits 0 ((bs + 63) / 64) = false ∨ g.storage = false) :
    ∃ q r, exec g S (.allocateDefer base) p = .thrown q ∧ Runs bs S q a (some r) ∧ getBlockCount q = getBlockCount p + 1 ∧ getFreeEntryCount q = bs ∧
      ∀ (g' : Grants) (base' : Nat), ∃ e, exec g' S (.allocateDefer base') q = .fail e := by
  have hall : ¬ (g.all bs = true) := by
    simp only [Grants.all, words]
    rcases hg with hg | hg | hg <;> simp [hg]
  have := C98_call_partial h g (.allocateDefer base) ⟨hb, by simp⟩
  rw [if_pos ⟨rfl, hf, hall⟩] at this
  obtain ⟨q, e, hq⟩ := this
  obtain ⟨r, hr⟩ : ∃ r, g.residue bs = some r := by
    simp only [Grants.residue, hv]
    by_cases h1 : g.freeBits 0 (words bs) = false <;> by_cases h2 : g.occupiedBits 0 (words bs) = false <;> simp [h1, h2]
  rw [hr] at hq
  have hn := C98_next_violated hq hf
  refine ⟨q, r, e, hq, ?_, hn.1, fun g' base' => ⟨_, hn.2.1 g' base'⟩⟩
  have h1 := (C98_history_partial h).blockCount
  have h2 := (C98_history_partial hq).blockCount
  simp only [Option.isSome_none, Option.isSome_some, Bool.false_eq_true, if_false, if_true] at h1 h2
  omega

/-- `Free` and `Clear` are not concerned: after a `Free` the entry can be allocated again, and `Clear` removes the residue. -/
theorem C98_recovery {bs S : Nat} {p : Pool α} {a : Abs α} {s : Option Residue} (h : Runs bs S p a s) :
    (∀ i v, a.entries i = some (some v) → ∀ (g g' : Grants) (base : Nat) (u : α), (∀ b ∈ a.bases, base + bs * S ≤ b ∨ b + bs * S ≤ base) →
      ∃ q q' j, exec g S (.free i) p = .done q none ∧ exec g' S (.allocate base u) q = .done q' (some j) ∧ j ≤ i ∧ readAt S q' j = .ok u) ∧
    ((∀ i, a.entries i ≠ some none) → (bs = 1 → ∀ i, a.entries i = none) → ∀ g : Grants, ∃ q, exec g S .clear p = .done q none ∧ Runs bs S q .empty none) ∧
    ((∀ i, a.entries i ≠ some none) → (bs = 1 → ∀ i, a.entries i = none) → destructor p = .ok 0) := by
  have hbs := h.pos
  refine ⟨?_, ?_, ?_⟩
  · intro i v hi g g' base u hb
    have hcap := (C98_history_partial h).live_lt i (by simp [Abs.isLive, hi])
    have h1 := C98_call_partial h g (.free i) ⟨⟨v, hi⟩, by simp [isAllocation]⟩
    rw [if_neg (by simp [isAllocation])] at h1
    obtain ⟨q, e1, hq⟩ := h1
    have hfree : HasFree bs (Op.spec bs (.free i) a).1 := ⟨i, hcap, by simp [Op.spec, Abs.set]⟩
    have h2 := C98_call_partial hq g' (.allocate base u) ⟨hb, fun _ _ => hfree⟩
    rw [if_neg (by rintro ⟨_, hh, _⟩; obtain ⟨j, hj, hn⟩ := hfree; exact hh j hj hn)] at h2
    obtain ⟨q', e2, hq'⟩ := h2
    refine ⟨q, q', _, e1, e2, ?_, ?_⟩
    · -- the least free entry
      unfold Abs.firstFree
      cases hs : (List.range ((Op.spec bs (.free i) a).1.capacity bs)).find? (fun i_1 => !(Op.spec bs (.free i) a).1.isLive i_1) with
      | none =>
        have := List.find?_eq_none.mp hs i (List.mem_range.mpr hcap)
        simp [Op.spec, Abs.set, Abs.isLive] at this
      | some j =>
        simp only [Option.getD_some]
        by_contra hlt
        have hl := (List.find?_range_eq_some.mp hs).2.2 i (by omega)
        simp [Op.spec, Abs.set, Abs.isLive] at hl
    · exact (C98_history_partial hq').read _ u (by simp [Op.spec, Abs.set])
  · intro h1 h2 g
    have := C98_call_partial h g .clear ⟨⟨h1, h2⟩, by simp [isAllocation]⟩
    rw [if_neg (by simp [isAllocation])] at this
    exact this
  · intro h1 h2
    obtain ⟨q, m, rfl, r, hl⟩ := h.inv
    exact (clear_ext r hl.empty h1 h2).2

/-! ### The hypotheses can be met -/

/-- A pool with one block of one entry, at address 1000. -/
theorem example_start (S : Nat) : ∃ p : Pool Nat, Runs 1 S p (.start 1000) none := by
  obtain ⟨p, e, _⟩ := new_repr (α := Nat) (bs := 1) (S := S) 1000
  exact ⟨p, .start 1000 (by omega) e⟩

/-- The pool is full, and the storage of the next block is refused: the pool is still right, but the next allocation uses a null pointer. -/
example : ∃ (p : Pool Nat) (a : Abs Nat), Runs 1 8 p a (some .storage) ∧ a.entries 0 = some (some 7) ∧ readAt 8 p 0 = .ok 7 ∧ getFreeEntryCount p = 1 ∧
    ∀ g base, exec g 8 (.allocateDefer base) p = .fail .ub := by
  obtain ⟨p, h⟩ := example_start 8
  let all : Grants := ⟨true, fun _ _ => true, fun _ _ => true, true⟩
  have h1 := C98_call_partial h all (.allocate 0 7) ⟨by intro b hb; simp [Abs.start] at hb; subst hb; exact Or.inl (by decide), by simp⟩
  rw [if_neg (by simp [Grants.all, all])] at h1
  obtain ⟨q, e, hq⟩ := h1
  have hent : (Op.spec 1 (.allocate 0 7) (Abs.start 1000 : Abs Nat)).1.entries 0 = some (some 7) := by decide
  have hbases : (Op.spec 1 (.allocate 0 7) (Abs.start 1000 : Abs Nat)).1.bases = [1000] := by decide
  have hcap : (Op.spec 1 (.allocate 0 7) (Abs.start 1000 : Abs Nat)).1.capacity 1 = 1 := by decide
  have hfull : ∀ i, i < (Op.spec 1 (.allocate 0 7) (Abs.start 1000 : Abs Nat)).1.capacity 1 → (Op.spec 1 (.allocate 0 7) (Abs.start 1000 : Abs Nat)).1.entries i ≠ none := by
    intro i hi
    rw [hcap] at hi
    obtain rfl : i = 0 := by omega
    rw [hent]; simp
  let g : Grants := ⟨true, fun _ _ => true, fun _ _ => true, false⟩
  have h2 := C98_call_partial hq g (.allocateDefer 2000) ⟨by intro b hb; rw [hbases] at hb; simp at hb; subst hb; exact Or.inr (by decide), by simp [isClear]⟩
  rw [if_pos ⟨rfl, hfull, by simp [Grants.all, g]⟩] at h2
  obtain ⟨q', e', hq'⟩ := h2
  have hres : g.residue 1 = some .storage := by simp [Grants.residue, g]
  rw [hres] at hq'
  have hn := C98_next_violated hq' hfull
  exact ⟨q', _, hq', hent, (C98_history_partial hq').read 0 7 hent, hn.1, fun g base => by simpa using hn.2.1 g base⟩

end Verif.MemoryPoolAlloc
