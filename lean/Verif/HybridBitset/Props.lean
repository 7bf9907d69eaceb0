import Verif.HybridBitset.Spec
import Verif.FixedBitset.Props

/-!
# C107: bitsets with a fallback
-/

namespace Verif.HybridBitset
open Verif.Cpp Verif.Bitset Verif.FixedBitset

variable {w : Nat}

theorem result_bounded1 (h : IsBlockWidth w) (N : Nat) (σ : Nat → Bitset w) (τ : Nat → List Bool) (hσ : ∀ k, HasL (σ k) (τ k))
    (op : Op w) (hN : nblocks (σ op.target) ≤ N) (hv : op.Valid τ) (hc : ∀ d a, op ≠ .copy d a) (hs : ∀ d a, op ≠ .swap d a) :
    Bounded N nblocks (FixedBitset.result N σ op) (op.result σ) := by
  have hw := h.pos
  have keep : (op.specResult τ).length = (τ op.target).length → Bounded N nblocks (op.result σ) (op.result σ) := by
    intro hd
    obtain ⟨b, e, hb⟩ := result_ok h σ τ hσ op hv
    refine Bounded.same (fun r e' => ?_)
    rw [e] at e'
    injection e' with e'
    subst e'
    rw [hasL_fits hw hb, hd, ← hasL_fits hw (hσ op.target)]
    exact hN
  cases op with
  | construct d => exact Bounded.same (fun r e => by injection e with e; subst e; exact Nat.zero_le _)
  | ofSize d n v => exact resize_bounded N _ n v
  | ofString d s => exact ofString_bounded N s
  | ofInt d t v => exact ofInt_bounded h N false v
  | copy d a => exact absurd rfl (hc d a)
  | swap d a => exact absurd rfl (hs d a)
  | clear d => exact Bounded.same (fun r e => by injection e with e; subst e; exact Nat.zero_le _)
  | resize d n v => exact resize_bounded N _ n v
  | setAll d v => exact keep (by simp [Op.specResult, Op.target])
  | resetAll d => exact keep (by simp [Op.specResult, Op.target])
  | set d i v => exact keep (by simp [Op.specResult, Op.target])
  | reset d i => exact keep (by simp [Op.specResult, Op.target])
  | flip d => exact keep (by simp [Op.specResult, Op.target])
  | unboundedSet d i v => exact unboundedSet_bounded N _ hN i v
  | unboundedReset d i => exact unboundedSet_bounded N _ hN i false
  | setBlock d i x => exact keep (by simp [Op.specResult, Op.target, Seq.setBlock])
  | shiftLeft d p => exact keep (by simp [Op.specResult, Op.target, Seq.shiftLeft]; omega)
  | shiftRight d p => exact keep (by simp [Op.specResult, Op.target, Seq.shiftRight]; omega)
  | reverse d => exact keep (by simp [Op.specResult, Op.target])
  | performsAND d a b => exact performsAND_bounded N _ _ _
  | performsOR d a b => exact performsMerge_bounded N _ _ _ _
  | performsXOR d a b => exact performsMerge_bounded N _ _ _ _
  | performsNOT d a => exact performsNOT_bounded N _ _
  | opAnd d a b => exact performsAND_bounded N _ _ _
  | opOr d a b => exact performsMerge_bounded N _ _ _ _
  | opXor d a b => exact performsMerge_bounded N _ _ _ _
  | opNot d a => exact performsNOT_bounded N _ _
  | proxy d i u => exact keep (by simp [Op.specResult, Op.target])
  | proxyBit d i a j => exact keep (by simp [Op.specResult, Op.target])
  | appendBits d t v n => exact appendBits_bounded N _ hN v n
  | write d mem seq n =>
    exact Bounded.andThen (write_bounded N _ hN mem seq n) (fun r r' _ e => by injection e with e; subst e; rfl)

theorem grows_eq (h : IsBlockWidth w) (N : Nat) (σ : Nat → Bitset w) (τ : Nat → List Bool) (hσ : ∀ k, HasL (σ k) (τ k))
    (op : Op w) (hN : (τ op.target).length ≤ N * w) (hv : op.Valid τ) (hc : ∀ d a, op ≠ .copy d a) (hs : ∀ d a, op ≠ .swap d a) :
    grows N σ op = decide (N * w < (op.specResult τ).length) := by
  obtain ⟨b, e, hb⟩ := result_ok h σ τ hσ op hv
  have hbd := result_bounded1 h N σ τ hσ op ((hasL_fits h.pos (hσ _) N).mpr hN) hv hc hs b e
  rw [hasL_fits h.pos hb] at hbd
  unfold grows
  by_cases hl : (op.specResult τ).length ≤ N * w
  · rw [hbd.1 hl]
    simp only [Nat.not_lt.mpr hl, decide_false]
  · rw [hbd.2 (by rw [← Nat.not_le, hasL_fits h.pos hb]; exact hl)]
    simp only [Nat.not_le.mp hl, decide_true]

/-- The variables of the model are those of the specification. -/
def Inv (N : Nat) (σ : Nat → Var w) (τ : Nat → List Bool) (g : Nat → Bool) : Prop :=
  ∀ k, HasL (σ k).bits (τ k) ∧ (σ k).fallback = g k ∧ (g k = false → (τ k).length ≤ N * w)

theorem Inv.upd {N : Nat} {σ : Nat → Var w} {τ : Nat → List Bool} {g : Nat → Bool} (hi : Inv N σ τ g) (d : Nat) {v : Var w} {l : List Bool}
    {b : Bool} (h1 : HasL v.bits l) (h2 : v.fallback = b) (h3 : b = false → l.length ≤ N * w) :
    Inv N (upd σ d v) (upd τ d l) (upd g d b) := by
  intro k
  by_cases hk : k = d
  · simp only [Bitset.upd, hk, if_true]
    exact ⟨h1, h2, h3⟩
  · simp only [Bitset.upd, hk, if_false]
    exact hi k

theorem upd_same {α : Type} (f : Nat → α) (d : Nat) : upd f d (f d) = f := by
  funext k
  by_cases hk : k = d <;> simp [upd, hk]

theorem exec_inv (h : IsBlockWidth w) {N : Nat} {σ : Nat → Var w} {τ : Nat → List Bool} {g : Nat → Bool} (hi : Inv N σ τ g) (op : HOp w)
    (hv : op.Valid τ) (hs : ∀ d, op = .bit (.copy d d) → g d = true) :
    ∃ σ', exec N σ op = .ok σ' ∧ Inv N σ' (op.spec τ) (op.wide (N * w) τ g) := by
  have hw := h.pos
  have hσ : ∀ k, HasL (σ k).bits (τ k) := fun k => (hi k).1
  cases op with
  | reserve d n =>
    refine ⟨_, rfl, ?_⟩
    simp only [HOp.spec, HOp.wide]
    have := hi.upd d (v := ⟨(σ d).bits, (σ d).fallback || decide (N < computeBlockCount w n)⟩) (l := τ d) (b := g d || decide (N * w < n))
      (hσ d) (by
        simp only [(hi d).2.1]
        congr 2
        rw [computeBlockCount_eq h, ← Nat.not_le, ← Nat.not_le, ← nb_le_iff hw]) (by
        intro hb
        simp only [Bool.or_eq_false_iff] at hb
        exact (hi d).2.2 hb.1)
    rwa [upd_same] at this
  | bit op =>
    by_cases hc : ∃ d a, op = .copy d a
    · obtain ⟨d, a, rfl⟩ := hc
      by_cases ha : a = d
      · subst ha
        have hg := hs a rfl
        have hf : (σ a).fallback = true := by rw [(hi a).2.1, hg]
        refine ⟨upd σ a (copySelf (σ a)), by simp only [exec, if_true], ?_⟩
        simp only [copySelf, hf, if_true, HOp.spec, HOp.wide, Op.spec, Op.target, Op.specResult, hg, Bool.or_self]
        exact hi.upd a (hσ a) hf (fun e => by cases e)
      · refine ⟨upd σ d ⟨(σ a).bits, newFallback N σ (.copy d a)⟩, by simp only [exec, if_neg ha], ?_⟩
        exact hi.upd d (hσ a) (by simp only [newFallback, (hi d).2.1, (hi a).2.1]) (by
          intro hb
          simp only [Bool.or_eq_false_iff] at hb
          exact (hi a).2.2 hb.2)
    by_cases hsw : ∃ d a, op = .swap d a
    · obtain ⟨d, a, rfl⟩ := hsw
      refine ⟨_, rfl, ?_⟩
      have hn : newFallback N σ (.swap d a) = (g d || g a) := by simp only [newFallback, (hi d).2.1, (hi a).2.1]
      refine (hi.upd d (v := ⟨(σ a).bits, newFallback N σ (.swap d a)⟩) (hσ a) hn ?_).upd a
        (v := ⟨(σ d).bits, newFallback N σ (.swap d a)⟩) (hσ d) hn ?_
      · intro hb
        simp only [Bool.or_eq_false_iff] at hb
        exact (hi a).2.2 hb.2
      · intro hb
        simp only [Bool.or_eq_false_iff] at hb
        exact (hi d).2.2 hb.1
    have hc' : ∀ d a, op ≠ .copy d a := fun d a e => hc ⟨d, a, e⟩
    have hs' : ∀ d a, op ≠ .swap d a := fun d a e => hsw ⟨d, a, e⟩
    obtain ⟨b, e, hb⟩ := result_ok h (fun k => (σ k).bits) τ hσ op hv
    have hx : exec N σ (.bit op) = .ok (upd σ op.target ⟨b, newFallback N σ op⟩) := by
      cases op <;> first
        | exact absurd rfl (hc' _ _)
        | exact absurd rfl (hs' _ _)
        | (simp only [exec, e, ok_bind]; rfl)
    have hsp : (HOp.bit op).spec τ = upd τ op.target (op.specResult τ) := by
      cases op <;> first
        | exact absurd rfl (hs' _ _)
        | rfl
    have hwd : (HOp.bit op).wide (N * w) τ g = upd g op.target (g op.target || decide (N * w < (op.specResult τ).length)) := by
      cases op <;> first
        | exact absurd rfl (hc' _ _)
        | exact absurd rfl (hs' _ _)
        | rfl
    have hnf : newFallback N σ op = ((σ op.target).fallback || grows N (fun k => (σ k).bits) op) := by
      cases op <;> first
        | exact absurd rfl (hc' _ _)
        | exact absurd rfl (hs' _ _)
        | rfl
    refine ⟨_, hx, ?_⟩
    rw [hsp, hwd]
    refine hi.upd _ hb ?_ ?_
    · simp only [hnf, (hi op.target).2.1]
      cases hg : g op.target with
      | true => rfl
      | false => rw [grows_eq h N _ τ hσ op ((hi op.target).2.2 hg) hv hc' hs']
    · intro hb
      simp only [Bool.or_eq_false_iff, decide_eq_false_iff_not, Nat.not_lt] at hb
      exact hb.2

theorem run_inv (h : IsBlockWidth w) {N : Nat} (ops : List (HOp w)) {σ : Nat → Var w} {τ : Nat → List Bool} {g : Nat → Bool}
    (hi : Inv N σ τ g) (ha : Allowed (N * w) τ g ops) :
    ∃ σ', run N σ ops = .ok σ' ∧ Inv N σ' (specRun τ ops) (wideRun (N * w) τ g ops) := by
  induction ops generalizing σ τ g with
  | nil => exact ⟨σ, rfl, hi⟩
  | cons op ops ih =>
    obtain ⟨hv, hs, ha⟩ := ha
    obtain ⟨σ1, e1, h1⟩ := exec_inv h hi op hv hs
    obtain ⟨σ2, e2, h2⟩ := ih h1 ha
    exact ⟨σ2, by simp only [run, e1, ok_bind, e2], h2⟩

theorem Inv.new (w N : Nat) : Inv (w := w) N (fun _ => Var.new) (fun _ => []) (fun _ => false) :=
  fun _ => ⟨HasL.empty w, rfl, fun _ => Nat.zero_le _⟩

/-- C107: every allowed history on variables of type `HybridBitset<Block, Capacity>`, of whatever sizes, in which a bitset is assigned
to itself only if it has been wide (beyond the bits of its own blocks), runs without a failure and has the results of the same operations
on sequences of booleans. -/
theorem C107_history_partial (h : IsBlockWidth w) (capacity : Nat) (ops : List (HOp w))
    (ha : Allowed (maxBlocks capacity * w) (fun _ => []) (fun _ => false) ops) :
    ∃ σ, run (maxBlocks capacity) (fun _ => Var.new) ops = .ok σ ∧ ∀ k, Shows (σ k).bits (specRun (fun _ => []) ops k) := by
  obtain ⟨σ, e, hi⟩ := run_inv h ops (Inv.new w _) ha
  exact ⟨σ, e, fun k => (hi k).1.shows h⟩

/-- A history that leaves the 16 bits of the blocks, and assigns a bitset that has been wide to itself. -/
example : Allowed (w := 8) (maxBlocks 16 * 8) (fun _ => []) (fun _ => false)
    [.bit (.ofString 0 "1101".toList), .bit (.ofSize 1 20 true), .bit (.performsXOR 0 0 1), .bit (.resize 0 3 false), .bit (.copy 0 0),
     .reserve 2 40, .bit (.swap 2 3), .bit (.copy 3 3), .bit (.appendBits 3 8 0x35#8 7)] := by
  simp only [Allowed, HOp.Valid, HOp.spec, HOp.wide, Op.Valid, Op.spec, Op.specResult, Op.target, upd, AppendAllowed, maxBlocks]
  refine ⟨by decide, by simp, trivial, by simp, trivial, by simp, trivial, by simp, trivial, ?_, trivial, by simp, trivial, by simp, trivial, ?_,
    by decide, by simp, trivial⟩
  · intro d hd
    simp only [HOp.bit.injEq, Op.copy.injEq] at hd
    rw [← hd.1]
    decide
  · intro d hd
    simp only [HOp.bit.injEq, Op.copy.injEq] at hd
    rw [← hd.1]
    decide

/-- C107 is false of self-assignment: after such a history, a bitset that has not been wide keeps its size but loses its blocks when it is
assigned to itself, so that none of its bits can be read or set. -/
theorem C107_self_violated (h : IsBlockWidth w) (capacity : Nat) (ops : List (HOp w))
    (ha : Allowed (maxBlocks capacity * w) (fun _ => []) (fun _ => false) ops) (d : Nat)
    (hd : wideRun (maxBlocks capacity * w) (fun _ => []) (fun _ => false) ops d = false) :
    ∃ σ σ', run (maxBlocks capacity) (fun _ => Var.new) ops = .ok σ ∧ exec (maxBlocks capacity) σ (.bit (.copy d d)) = .ok σ' ∧
      getSize (σ' d).bits = (specRun (fun _ => []) ops d).length ∧ getBlockCount (σ' d).bits = 0 ∧ (σ' d).fallback = false ∧
      ∀ i v, (∃ e, test (σ' d).bits i = .error e) ∧ (∃ e, Bitset.set (σ' d).bits i v = .error e) := by
  obtain ⟨σ, e, hi⟩ := run_inv h ops (Inv.new w _) ha
  have hf : (σ d).fallback = false := by rw [(hi d).2.1, hd]
  refine ⟨σ, upd σ d (copySelf (σ d)), e, by simp [exec], ?_, ?_, by simp [upd, copySelf, hf], ?_⟩
  · simp only [upd, if_true, getSize, copySelf, hf, Bool.false_eq_true, if_false]
    exact Has.size (hi d).1
  · simp [upd, getBlockCount, copySelf, hf]
  · intro i v
    simp only [upd, if_true, copySelf, hf, Bool.false_eq_true, if_false, test, Bitset.set, rd, List.getElem?_nil]
    constructor <;> by_cases hi : i < (σ d).bits.bitCount <;> simp [hi]

/-- A bitset of 11 bits to assign to itself. -/
example : Allowed (w := 8) (maxBlocks 16 * 8) (fun _ => []) (fun _ => false) [.bit (.ofSize 1 11 true)] ∧
    wideRun (w := 8) (maxBlocks 16 * 8) (fun _ => []) (fun _ => false) [.bit (.ofSize 1 11 true)] 1 = false := by
  refine ⟨⟨trivial, by simp, trivial⟩, by decide⟩

end Verif.HybridBitset
