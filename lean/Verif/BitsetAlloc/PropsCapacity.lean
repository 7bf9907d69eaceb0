import Verif.BitsetAlloc.ModelCapacity
import Verif.BitsetAlloc.Props

/-!
# C147: capacity of a bitset
-/

namespace Verif.BitsetAlloc
open Verif.Cpp Verif.Bitset

variable {w : Nat}

/-! ## Helpers -/

theorem nb_le_iff (hw : 0 < w) (n c : Nat) : nb w n ≤ c ↔ n ≤ c * w := by
  rw [nb_eq_ceil hw, ← Nat.lt_succ_iff, Nat.div_lt_iff_lt_mul hw, Nat.succ_mul]
  omega

theorem appendBits_free (h : IsBlockWidth w) {t : Nat} {g : Grant} {b : Bitset w} (hl : b.blocks.length = nb w b.bitCount) (v : BitVec t) (n : Nat)
    (hg : ∀ j, j < nb w (b.bitCount + n) → g j (j + 1) = true) :
    (appendBits g v n b = .fail .ub) ∨ (∃ b', appendBits g v n b = .done b' () ∧ b'.bitCount = b.bitCount + n ∧ b'.blocks.length = nb w b'.bitCount) := by
  rcases appendBits_cases h g b hl v n with ⟨b', _, _, _, k3, _, k5⟩ | ⟨e, _⟩ | ⟨b', e, _, k1, k2, _⟩
  · rw [hg _ k3] at k5; cases k5
  · exact Or.inl e
  · exact Or.inr ⟨b', e, k1, by rw [k1]; exact k2⟩

theorem writeLoop_free (h : IsBlockWidth w) {g : Grant} (mem : List (BitVec 8)) (k p n : Nat) {b : Bitset w} (hl : b.blocks.length = nb w b.bitCount)
    (hg : ∀ j, j < nb w (b.bitCount + n) → g j (j + 1) = true) (b' : Bitset w) : writeLoop g mem k p n b ≠ .thrown b' := by
  induction k generalizing p n b with
  | zero => intro e; cases e
  | succ k ih =>
    simp only [writeLoop]
    by_cases hp : p < mem.length
    · rw [X.bind_done (readByte_ok hp b)]
      rcases appendBits_free h hl mem[p] (min n 8) (fun j hj => hg j (Nat.lt_of_lt_of_le hj (nb_mono h.pos (by omega)))) with e | ⟨c, e, h1, h2⟩
      · rw [X.bind_fail e]; intro e; cases e
      · rw [X.bind_done e]
        exact ih _ _ h2 (fun j hj => hg j (by rw [h1] at hj; rwa [show b.bitCount + min n 8 + (n - min n 8) = b.bitCount + n by omega] at hj))
    · have : readByte mem p b = .fail .ub := by simp [readByte, rd_ub (Nat.le_of_not_lt hp)]
      rw [X.bind_fail this]; intro e; cases e

theorem write_free (h : IsBlockWidth w) {g : Grant} (mem : List (BitVec 8)) (seq : Sequence) (n : Nat) {b : Bitset w} (hl : b.blocks.length = nb w b.bitCount)
    (hg : ∀ j, j < nb w (b.bitCount + n) → g j (j + 1) = true) (b' : Bitset w) : write g mem seq n b ≠ .thrown b' := by
  unfold write
  by_cases hbit : seq.bit < 8
  · simp only [hbit, decide_true, X.assert_true]
    rw [X.pure_bind']
    have hloop : ∀ (c : Bitset w) (p k q : Nat), c.blocks.length = nb w c.bitCount → c.bitCount + k = b.bitCount + n → ∀ (s : Sequence),
        (writeLoop g mem q p k >>= fun _ => (pure s : X (Bitset w) Sequence)) c ≠ .thrown b' := by
      intro c p k q h1 h2 s
      have := writeLoop_free h mem q p k h1 (by rw [h2]; exact hg)
      cases e : writeLoop g mem q p k c with
      | done b'' u => rw [X.bind_done e]; intro e; cases e
      | thrown b'' => exact absurd e (this b'')
      | fail x => rw [X.bind_fail e]; intro e; cases e
    unfold writeHead
    by_cases h0 : (seq.bit != 0) = true
    · simp only [h0, if_true]
      by_cases hp : seq.ptr < mem.length
      · rcases appendBits_free h hl (((mem[seq.ptr] &&& (~~~((1#32 <<< seq.bit) - 1#32)).setWidth 8).setWidth (promoted w)) >>> seq.bit) (min n (8 - seq.bit))
          (fun j hj => hg j (Nat.lt_of_lt_of_le hj (nb_mono h.pos (by omega)))) with e | ⟨c, e, h1, h2⟩
        · have hh : ∀ {β : Type} (f : Nat × Nat → X (Bitset w) β), ((readByte mem seq.ptr >>= fun x => appendBits g (((x &&& (~~~((1#32 <<< seq.bit) - 1#32)).setWidth 8).setWidth (promoted w)) >>> seq.bit) (min n (8 - seq.bit)) >>= fun _ => pure (seq.ptr + 1, n - min n (8 - seq.bit))) >>= f) b = .fail .ub := by
            intro β f
            refine X.bind_fail ?_
            rw [X.bind_done (readByte_ok hp b)]
            exact X.bind_fail e
          rw [hh]; intro e; cases e
        · have hh : (readByte mem seq.ptr >>= fun x => appendBits g (((x &&& (~~~((1#32 <<< seq.bit) - 1#32)).setWidth 8).setWidth (promoted w)) >>> seq.bit) (min n (8 - seq.bit)) >>= fun _ => (pure (seq.ptr + 1, n - min n (8 - seq.bit)) : X (Bitset w) (Nat × Nat))) b = .done c (seq.ptr + 1, n - min n (8 - seq.bit)) := by
            rw [X.bind_done (readByte_ok hp b), X.bind_done e]; rfl
          rw [X.bind_done hh]
          exact hloop c _ _ _ h2 (by rw [h1]; omega) _
      · have hr : readByte mem seq.ptr b = .fail .ub := by simp [readByte, rd_ub (Nat.le_of_not_lt hp)]
        have hh : ∀ {α β : Type} (f : BitVec 8 → X (Bitset w) α) (k : α → X (Bitset w) β), ((readByte mem seq.ptr >>= f) >>= k) b = .fail .ub :=
          fun f k => X.bind_fail (X.bind_fail hr)
        rw [hh]; intro e; cases e
    · simp only [h0]
      exact hloop b _ _ _ hl rfl _
  · simp only [hbit, decide_false, X.assert_false]
    intro e; cases e

theorem operand_size {σ : Nat → Bitset w} {τ : Nat → List Bool} (hσ : ∀ k, HasL (σ k) (τ k)) (d a : Nat) :
    getBlockCount ((operand σ d a).get (σ d)) = nb w (τ a).length ∧ getSize ((operand σ d a).get (σ d)) = (τ a).length := by
  have e : (operand σ d a).get (σ d) = σ a := by
    unfold operand; split
    · next h => rw [h]; rfl
    · rfl
  rw [e]
  exact ⟨by rw [← (hσ a).size]; exact (hσ a).wf.len, (hσ a).size⟩

/-- An operation on its target within the capacity `c` of a vector is the operation without failures. -/
theorem exec_within (h : IsBlockWidth w) (g : Grant) (σ : Nat → Bitset w) (τ : Nat → List Bool) (hσ : ∀ k, HasL (σ k) (τ k)) (op : Op w) (hp : InPlace op = true) (hv : op.Valid τ)
    {c : Nat} (hg : ∀ m n, n ≤ c → g m n = true) (hc : (op.spec τ op.target).length ≤ c * w) :
    ∃ σ', exec g σ op = .done σ' () ∧ ∀ k, HasL (σ' k) (op.spec τ k) := by
  have hw := h.pos
  obtain ⟨σ', e, hσ'⟩ := exec_ok h σ τ hσ op hv
  have hplain : plain σ op = .done σ' () := by unfold plain; rw [e]
  have hnb : ∀ n, n ≤ c * w → nb w n ≤ c := fun n hn => (nb_le_iff hw n c).mpr hn
  suffices hd : exec g σ op = plain σ op from ⟨σ', hd.trans hplain, hσ'⟩
  have strong : ∀ {n : Nat} {out : Out (Bitset w) Unit} (d : Nat), op.target = d → (∀ d a, op ≠ .swap d a) → n ≤ c → Strong g (σ d) n out (op.result σ) → onVar σ d out = plain σ op := by
    intro n out d hd hs hn hS
    rcases hS with ⟨_, _, h1⟩ | ⟨h1, _⟩
    · rw [hg _ _ hn] at h1; cases h1
    · rcases onVar_same (g := fun _ _ => true) σ op hs (Or.inr h1) with h2 | ⟨_, _, _, h2⟩
      · rw [← hd]; exact h2
      · cases h2
  cases op with
  | construct d => cases hp
  | ofSize d n v => cases hp
  | ofString d s => cases hp
  | ofInt d t v => cases hp
  | copy d a => cases hp
  | swap d a => cases hp
  | opAnd d a b => cases hp
  | opOr d a b => cases hp
  | opXor d a b => cases hp
  | opNot d a => cases hp
  | resize d n v =>
    refine strong d rfl (by simp) ?_ (resize_strong g n v (σ d) (WF.last h (hσ d).wf))
    rw [computeBlockCount_eq h]
    refine hnb _ ?_
    simp [Op.spec, upd, Op.target, Op.specResult, Seq.resize] at hc
    omega
  | unboundedSet d i v =>
    by_cases hc' : (σ d).bitCount ≤ i ∧ v = true
    · refine strong d rfl (by simp) ?_ (unboundedSet_strong g i v (σ d) (WF.last h (hσ d).wf) hc'.1 hc'.2)
      rw [computeBlockCount_eq h]
      refine hnb _ ?_
      have := (hσ d).size
      simp [Op.spec, upd, Op.target, Op.specResult, Seq.unboundedSet, hc'.2, show ¬ i < (τ d).length by omega] at hc
      omega
    · have := unboundedSet_same g i v (σ d) (by
        by_cases h1 : i < (σ d).bitCount
        · exact Or.inl h1
        · exact Or.inr (by cases v with | false => rfl | true => exact absurd ⟨by omega, rfl⟩ hc'))
      rcases onVar_same (g := fun _ _ => true) σ (.unboundedSet d i v) (by simp) (Or.inr this) with h2 | ⟨_, _, _, h2⟩
      · exact h2
      · cases h2
  | unboundedReset d i =>
    have := unboundedSet_same g i false (σ d) (Or.inr rfl)
    rcases onVar_same (g := fun _ _ => true) σ (.unboundedReset d i) (by simp) (Or.inr this) with h2 | ⟨_, _, _, h2⟩
    · exact h2
    · cases h2
  | performsAND d a b =>
    refine strong d rfl (by simp) ?_ (performsAND_strong g _ _ _)
    simp [Op.spec, upd, Op.target, Op.specResult, Seq.zip] at hc
    rw [(operand_size hσ d a).1, (operand_size hσ d b).1]
    exact Nat.max_le.mpr ⟨hnb _ (by omega), hnb _ (by omega)⟩
  | performsOR d a b =>
    refine strong d rfl (by simp) ?_ (performsMerge_strong g _ _ _ _)
    simp [Op.spec, upd, Op.target, Op.specResult, Seq.zip] at hc
    split
    · rw [(operand_size hσ d a).1]; exact hnb _ (by omega)
    · rw [(operand_size hσ d b).1]; exact hnb _ (by omega)
  | performsXOR d a b =>
    refine strong d rfl (by simp) ?_ (performsMerge_strong g _ _ _ _)
    simp [Op.spec, upd, Op.target, Op.specResult, Seq.zip] at hc
    split
    · rw [(operand_size hσ d a).1]; exact hnb _ (by omega)
    · rw [(operand_size hσ d b).1]; exact hnb _ (by omega)
  | performsNOT d a =>
    refine strong d rfl (by simp) ?_ (performsNOT_strong g _ _)
    simp [Op.spec, upd, Op.target, Op.specResult] at hc
    rw [(operand_size hσ d a).1]; exact hnb _ hc
  | appendBits d t v n =>
    have hn : nb w ((σ d).bitCount + n) ≤ c := by
      refine hnb _ ?_
      simpa [Op.spec, upd, Op.target, Op.specResult, Seq.lowBits, (hσ d).size] using hc
    rcases exec_cases h g σ τ hσ (.appendBits d t v n) hv with ⟨σ'', e1, e2, _⟩ | ⟨hx, _⟩ | ⟨_, b', e1, _⟩
    · rw [e1]; unfold plain; rw [e2]
    · exact hx.elim
    · exfalso
      rcases appendBits_free (g := g) h (hσ d).wf.len v n (fun j hj => hg _ _ (by omega)) with e3 | ⟨b'', e3, _⟩
      · simp [exec, onVar, e3] at e1
      · simp [exec, onVar, e3] at e1
  | write d mem seq n =>
    have hn : nb w ((σ d).bitCount + n) ≤ c := by
      refine hnb _ ?_
      simpa [Op.spec, upd, Op.target, Op.specResult, Seq.stream, (hσ d).size] using hc
    rcases exec_cases h g σ τ hσ (.write d mem seq n) hv with ⟨σ'', e1, e2, _⟩ | ⟨hx, _⟩ | ⟨_, b', e1, _⟩
    · rw [e1]; unfold plain; rw [e2]
    · exact hx.elim
    · exfalso
      have := write_free (g := g) h mem seq n (hσ d).wf.len (fun j hj => hg _ _ (by omega : j + 1 ≤ c))
      cases e3 : write g mem seq n (σ d) with
      | done b'' r => simp [exec, onVar, e3] at e1
      | thrown b'' => exact this b'' e3
      | fail x => simp [exec, onVar, e3] at e1
  | _ => rfl

/-- What an operation on its target that succeeds has been granted. -/
theorem exec_grows (h : IsBlockWidth w) (g : Grant) (σ : Nat → Bitset w) (τ : Nat → List Bool) (hσ : ∀ k, HasL (σ k) (τ k)) (op : Op w) (hp : InPlace op = true) (hv : op.Valid τ)
    {σ' : Nat → Bitset w} (he : exec g σ op = .done σ' ()) :
    getBlockCount (σ' op.target) ≤ getBlockCount (σ op.target) ∨ ∃ m, g m (getBlockCount (σ' op.target)) = true := by
  have hw := h.pos
  have hσ' : ∀ k, HasL (σ' k) (op.spec τ k) := by
    rcases exec_cases h g σ τ hσ op hv with ⟨s, e1, _, e2⟩ | ⟨_, e1, _⟩ | ⟨_, _, e1, _⟩
    · rw [he] at e1; injection e1 with e1; rw [e1]; exact e2
    · rw [he] at e1; cases e1
    · rw [he] at e1; cases e1
  have hlen : ∀ d, op.target = d → getBlockCount (σ' d) = nb w (op.spec τ d).length := by
    intro d _
    show (σ' d).blocks.length = _
    rw [(hσ' d).wf.len, (hσ' d).size]
  have hold : ∀ d, getBlockCount (σ d) = nb w (τ d).length := by
    intro d
    show (σ d).blocks.length = _
    rw [(hσ d).wf.len, (hσ d).size]
  have same : (op.spec τ op.target).length ≤ (τ op.target).length → getBlockCount (σ' op.target) ≤ getBlockCount (σ op.target) := by
    intro hx; rw [hlen _ rfl, hold]; exact nb_mono hw hx
  have strong : ∀ {n : Nat} {out : Out (Bitset w) Unit} {m : M (Bitset w)} (d : Nat), op.target = d → onVar σ d out = .done σ' () → Strong g (σ d) n out m → n = nb w (op.spec τ d).length →
      getBlockCount (σ' op.target) ≤ getBlockCount (σ op.target) ∨ ∃ m, g m (getBlockCount (σ' op.target)) = true := by
    intro n out m d hd ho hS hn
    rw [hd, hlen d hd, ← hn]
    rcases hS with ⟨h1, _⟩ | ⟨_, h1 | h1⟩
    · rw [h1] at ho; cases ho
    · exact Or.inl h1
    · exact Or.inr ⟨_, h1⟩
  cases op with
  | construct d => cases hp
  | ofSize d n v => cases hp
  | ofString d s => cases hp
  | ofInt d t v => cases hp
  | copy d a => cases hp
  | swap d a => cases hp
  | opAnd d a b => cases hp
  | opOr d a b => cases hp
  | opXor d a b => cases hp
  | opNot d a => cases hp
  | resize d n v =>
    refine strong d rfl he (resize_strong g n v (σ d) (WF.last h (hσ d).wf)) ?_
    rw [computeBlockCount_eq h]
    congr 1
    simp [Op.spec, upd, Op.target, Op.specResult, Seq.resize]
    omega
  | unboundedSet d i v =>
    by_cases hc' : (σ d).bitCount ≤ i ∧ v = true
    · refine strong d rfl he (unboundedSet_strong g i v (σ d) (WF.last h (hσ d).wf) hc'.1 hc'.2) ?_
      rw [computeBlockCount_eq h]
      congr 1
      have := (hσ d).size
      simp [Op.spec, upd, Op.target, Op.specResult, Seq.unboundedSet, hc'.2, show ¬ i < (τ d).length by omega]
      omega
    · left
      apply same
      have := (hσ d).size
      simp only [Op.spec, upd, Op.target, Op.specResult, Seq.unboundedSet, if_true]
      split
      · simp
      · next hi =>
        have : v = false := by cases v with | false => rfl | true => exact absurd ⟨by omega, rfl⟩ hc'
        simp [this]
  | performsAND d a b =>
    refine strong d rfl he (performsAND_strong g _ _ _) ?_
    rw [(operand_size hσ d a).1, (operand_size hσ d b).1]
    simp [Op.spec, upd, Op.target, Op.specResult, Seq.zip]
    rcases Nat.le_total (τ a).length (τ b).length with h1 | h1
    · rw [Nat.max_eq_right h1, Nat.max_eq_right (nb_mono hw h1)]
    · rw [Nat.max_eq_left h1, Nat.max_eq_left (nb_mono hw h1)]
  | performsOR d a b =>
    refine strong d rfl he (performsMerge_strong g _ _ _ _) ?_
    simp [Op.spec, upd, Op.target, Op.specResult, Seq.zip]
    rw [(operand_size hσ d a).2, (operand_size hσ d b).2]
    split
    · rw [(operand_size hσ d a).1]; congr 1; omega
    · rw [(operand_size hσ d b).1]; congr 1; omega
  | performsXOR d a b =>
    refine strong d rfl he (performsMerge_strong g _ _ _ _) ?_
    simp [Op.spec, upd, Op.target, Op.specResult, Seq.zip]
    rw [(operand_size hσ d a).2, (operand_size hσ d b).2]
    split
    · rw [(operand_size hσ d a).1]; congr 1; omega
    · rw [(operand_size hσ d b).1]; congr 1; omega
  | performsNOT d a =>
    refine strong d rfl he (performsNOT_strong g _ _) ?_
    simp [Op.spec, upd, Op.target, Op.specResult]
    rw [(operand_size hσ d a).1]
  | appendBits d t v n =>
    rcases (Sound.refl g (σ d) (hσ d).wf.len).append h v n with ⟨b', e1, _⟩ | ⟨e1, _⟩ | ⟨b', e1, _, e2⟩
    · simp [exec, onVar, e1] at he
    · simp [exec, onVar, e1] at he
    · simp only [exec, onVar, e1, Out.done.injEq, and_true] at he
      have : σ' d = b' := by rw [← he]; simp [upd]
      by_cases hx : b'.blocks.length ≤ (σ d).blocks.length
      · left; show (σ' d).blocks.length ≤ _; rw [this]; exact hx
      · right
        refine ⟨b'.blocks.length - 1, ?_⟩
        show g _ (σ' d).blocks.length = true
        rw [this]
        have := e2.granted (b'.blocks.length - 1) (by omega) (by omega)
        rwa [show b'.blocks.length - 1 + 1 = b'.blocks.length by omega] at this
  | write d mem seq n =>
    rcases write_cases h g mem seq n (hσ d).wf.len with ⟨b', e1, _⟩ | ⟨x, e1, _⟩ | ⟨b', r, e1, _, e2⟩
    · simp [exec, onVar, e1] at he
    · simp [exec, onVar, e1] at he
    · simp only [exec, onVar, e1, Out.done.injEq, and_true] at he
      have : σ' d = b' := by rw [← he]; simp [upd]
      by_cases hx : b'.blocks.length ≤ (σ d).blocks.length
      · left; show (σ' d).blocks.length ≤ _; rw [this]; exact hx
      · right
        refine ⟨b'.blocks.length - 1, ?_⟩
        show g _ (σ' d).blocks.length = true
        rw [this]
        have := e2.granted (b'.blocks.length - 1) (by omega) (by omega)
        rwa [show b'.blocks.length - 1 + 1 = b'.blocks.length by omega] at this
  | shiftLeft d p => left; apply same; simp [Op.spec, upd, Op.target, Op.specResult, Seq.shiftLeft]; omega
  | shiftRight d p => left; apply same; simp [Op.spec, upd, Op.target, Op.specResult, Seq.shiftRight]; omega
  | _ => left; apply same; simp [Op.spec, upd, Op.target, Op.specResult, Seq.setBlock]

/-! ## Property -/

/-- Histories: the variables and the sequences that they should hold.  An operation that replaces the vector of its target may give it any capacity that suffices. -/
inductive RunsCap : Vars w → (Nat → List Bool) → Prop where
  | start (cap : Nat → Nat) : RunsCap ⟨fun _ => empty, cap⟩ (fun _ => [])
  | reserved {s s' τ} (alloc : Grant) (room : Nat → Nat) (d n : Nat) : RunsCap s τ → reserve alloc room d n s = .done s' () → RunsCap s' τ
  | succeeded {s s' τ} (alloc : Grant) (room : Nat → Nat) (op : Op w) : RunsCap s τ → InPlace op = true → op.Valid τ → call alloc room op s = .done s' () → RunsCap s' (op.spec τ)
  | failed {s s' τ} (alloc : Grant) (room : Nat → Nat) (op : Op w) : RunsCap s τ → InPlace op = true → op.Valid τ → Guarded op → call alloc room op s = .thrown s' → RunsCap s' τ
  | replaced {s σ τ} (g : Grant) (op : Op w) (cap : Nat → Nat) : RunsCap s τ → InPlace op = false → op.Valid τ → exec g s.bits op = .done σ () →
      (∀ k, getBlockCount (σ k) ≤ cap k) → RunsCap ⟨σ, cap⟩ (op.spec τ)

/-- Every size of the variable `d` after one of the operations is at most `n`. -/
def Within (d n : Nat) : (Nat → List Bool) → List (Op w) → Prop
  | _, [] => True
  | τ, op :: ops => (op.spec τ d).length ≤ n ∧ Within d n (op.spec τ) ops

theorem grown_ge (room : Nat → Nat) (c n : Nat) : c ≤ grown room c n ∧ n ≤ grown room c n := by
  unfold grown; split <;> omega

theorem spec_other (τ : Nat → List Bool) (op : Op w) (hp : InPlace op = true) (k : Nat) (hk : k ≠ op.target) : op.spec τ k = τ k := by
  cases op with
  | swap d a => cases hp
  | _ => simp only [Op.spec, upd, hk, if_false]

/-- The bitsets and the blocks after any outcome. -/
theorem call_cases (h : IsBlockWidth w) (alloc : Grant) (room : Nat → Nat) {s : Vars w} {τ : Nat → List Bool} (hσ : ∀ k, HasL (s.bits k) (τ k)) (hc : ∀ k, getBlockCount (s.bits k) ≤ s.cap k)
    (op : Op w) (hp : InPlace op = true) (hv : op.Valid τ) :
    (∃ s', call alloc room op s = .done s' () ∧ (∀ k, HasL (s'.bits k) (op.spec τ k)) ∧ (∀ k, getBlockCount (s'.bits k) ≤ s'.cap k) ∧ (∀ k, s.cap k ≤ s'.cap k) ∧
        s'.cap = upd s.cap op.target (grown room (s.cap op.target) (getBlockCount (s'.bits op.target))) ∧
        ∃ σ', exec (fun m n => n ≤ s.cap op.target || alloc m n) s.bits op = .done σ' () ∧ s'.bits = σ') ∨
      (∃ s', call alloc room op s = .thrown s' ∧ (∀ k, s.cap k ≤ s'.cap k) ∧ (Guarded op → s' = s)) := by
  unfold call
  have hup : ∀ b : Nat, ∀ k, s.cap k ≤ upd s.cap op.target (grown room (s.cap op.target) b) k := by
    intro b k
    unfold upd
    split
    · next e => rw [e]; exact (grown_ge _ _ _).1
    · exact Nat.le_refl _
  rcases exec_cases h (fun m n => decide (n ≤ s.cap op.target) || alloc m n) s.bits τ hσ op hv with ⟨σ', e, e', h1⟩ | ⟨hg, e, _⟩ | ⟨hg, b', e, _⟩
  · left
    rw [e]
    refine ⟨_, rfl, h1, ?_, hup _, rfl, σ', rfl, rfl⟩
    intro k
    show getBlockCount (σ' k) ≤ upd s.cap op.target _ k
    unfold upd
    split
    · next e => rw [e]; exact (grown_ge _ _ _).2
    · next e =>
      have h2 := hc k
      have h3 : getBlockCount (σ' k) = getBlockCount (s.bits k) := by
        show (σ' k).blocks.length = (s.bits k).blocks.length
        rw [(h1 k).wf.len, (hσ k).wf.len, (h1 k).size, (hσ k).size, spec_other τ op hp k e]
      omega
  · right
    rw [e]
    refine ⟨_, rfl, hup _, fun _ => ?_⟩
    have : grown room (s.cap op.target) (getBlockCount (s.bits op.target)) = s.cap op.target := by unfold grown; rw [if_pos (hc _)]
    show (⟨s.bits, upd s.cap op.target _⟩ : Vars w) = s
    rw [this]
    cases s with
    | mk bits cap => simp only [Vars.mk.injEq, true_and]; funext k; unfold upd; split <;> simp_all
  · right
    rw [e]
    exact ⟨_, rfl, hup _, fun hg' => absurd hg' hg⟩

theorem RunsCap.good (h : IsBlockWidth w) {s : Vars w} {τ : Nat → List Bool} (hr : RunsCap s τ) : (∀ k, HasL (s.bits k) (τ k)) ∧ ∀ k, getBlockCount (s.bits k) ≤ s.cap k := by
  induction hr with
  | start cap => exact ⟨fun _ => HasL.empty w, fun k => Nat.zero_le _⟩
  | @reserved s s' τ alloc room d n hr e ih =>
    unfold reserve at e
    split at e
    · simp only [Out.done.injEq, and_true] at e
      subst e
      refine ⟨ih.1, fun k => ?_⟩
      show _ ≤ upd s.cap d _ k
      unfold upd
      split
      · next hk => rw [hk]; exact Nat.le_trans (ih.2 d) (grown_ge _ _ _).1
      · exact ih.2 k
    · cases e
  | succeeded alloc room op _ hp hv e ih =>
    rcases call_cases h alloc room ih.1 ih.2 op hp hv with ⟨s', e1, h1, h2, _⟩ | ⟨s', e1, _⟩
    · rw [e] at e1; injection e1 with e1; rw [e1]; exact ⟨h1, h2⟩
    · rw [e] at e1; cases e1
  | failed alloc room op _ hp hv hg e ih =>
    rcases call_cases h alloc room ih.1 ih.2 op hp hv with ⟨s', e1, _⟩ | ⟨s', e1, _, h1⟩
    · rw [e] at e1; cases e1
    · rw [e] at e1; injection e1 with e1; rw [e1, h1 hg]; exact ih
  | replaced g op cap _ hp hv e hc ih =>
    rcases exec_cases h g _ _ ih.1 op hv with ⟨σ', e1, _, h1⟩ | ⟨_, e1, _⟩ | ⟨_, _, e1, _⟩
    · rw [e] at e1; injection e1 with e1; rw [e1]; rw [e1] at hc; exact ⟨h1, hc⟩
    · rw [e] at e1; cases e1
    · rw [e] at e1; cases e1

/-- The size of a bitset is at most its capacity, after every history. -/
theorem C147_fits (h : IsBlockWidth w) {s : Vars w} {τ : Nat → List Bool} (hr : RunsCap s τ) (k : Nat) : getSize (s.bits k) ≤ getCapacity s k := by
  have hg := hr.good h
  have := hg.2 k
  unfold getCapacity
  rw [← nb_le_iff h.pos]
  show nb w (s.bits k).bitCount ≤ _
  rw [← (hg.1 k).wf.len]
  exact this

/-- `Reserve(n)` makes the capacity at least `n`, never makes it smaller, and asks for memory only if it is too small; it changes no bit.  If it throws it changes nothing. -/
theorem C147_reserve (h : IsBlockWidth w) (alloc : Grant) (room : Nat → Nat) (d n : Nat) (s : Vars w) :
    (∃ s', reserve alloc room d n s = .done s' () ∧ s'.bits = s.bits ∧ n ≤ getCapacity s' d ∧ getCapacity s d ≤ getCapacity s' d ∧ (n ≤ getCapacity s d → s' = s) ∧
        ∀ k, k ≠ d → getCapacity s' k = getCapacity s k) ∨
      (reserve alloc room d n s = .thrown s ∧ getCapacity s d < n) := by
  unfold reserve
  rw [computeBlockCount_eq h]
  by_cases hc : nb w n ≤ s.cap d
  · left
    have hs : (⟨s.bits, upd s.cap d (grown room (s.cap d) (nb w n))⟩ : Vars w) = s := by
      cases s with
      | mk bits cap =>
        simp only [grown, hc, if_true, Vars.mk.injEq, true_and]
        funext k; unfold upd; split <;> simp_all
    refine ⟨s, ?_, rfl, (nb_le_iff h.pos n _).mp hc, Nat.le_refl _, fun _ => rfl, fun _ _ => rfl⟩
    simp only [hc, decide_true, Bool.true_or, if_true, hs]
  · have hn : ¬ n ≤ getCapacity s d := by unfold getCapacity; rwa [← nb_le_iff h.pos]
    by_cases ha : alloc (s.cap d) (nb w n) = true
    · left
      refine ⟨⟨s.bits, upd s.cap d (grown room (s.cap d) (nb w n))⟩, by simp [ha], rfl, ?_, ?_, fun h => absurd h hn, ?_⟩
      · unfold getCapacity
        rw [← nb_le_iff h.pos]
        simp only [upd, if_true]
        exact (grown_ge _ _ _).2
      · unfold getCapacity
        simp only [upd, if_true]
        exact Nat.mul_le_mul_right _ (grown_ge _ _ _).1
      · intro k hk
        simp [getCapacity, upd, hk]
    · right
      refine ⟨by simp [hc, ha], by omega⟩

theorem reserved_aux (h : IsBlockWidth w) (room : Nat → Nat) (d : Nat) (L : List (Grant × Op w)) :
    ∀ {s : Vars w} {τ : Nat → List Bool}, (∀ k, HasL (s.bits k) (τ k)) → (∀ k, getBlockCount (s.bits k) ≤ s.cap k) → (∀ x ∈ L, InPlace x.2 = true ∧ x.2.target = d) →
      ValidHistory τ (L.map Prod.snd) → Within d (getCapacity s d) τ (L.map Prod.snd) →
      ∃ s', calls room L s = .done s' () ∧ (∀ k, HasL (s'.bits k) (specRun τ (L.map Prod.snd) k)) ∧ s'.cap = s.cap := by
  induction L with
  | nil => intro s τ hσ _ _ _ _; exact ⟨s, rfl, hσ, rfl⟩
  | cons x L ih =>
    obtain ⟨alloc, op⟩ := x
    intro s τ hσ hc hL hv hw
    have hp := (hL (alloc, op) (by simp)).1
    have ht : op.target = d := (hL (alloc, op) (by simp)).2
    have hlen : (op.spec τ op.target).length ≤ s.cap op.target * w := by rw [ht]; exact hw.1
    obtain ⟨σ', e1, h1⟩ := exec_within h (fun m n => decide (n ≤ s.cap op.target) || alloc m n) s.bits τ hσ op hp hv.1 (c := s.cap op.target) (fun m n hn => by simp [hn]) hlen
    rcases call_cases h alloc room hσ hc op hp hv.1 with ⟨s', e2, h2, h3, _, h4, σ'', e3, h5⟩ | ⟨s', e2, _⟩
    · have hcap : s'.cap = s.cap := by
        rw [h4]
        have : getBlockCount (s'.bits op.target) ≤ s.cap op.target := by
          show (s'.bits op.target).blocks.length ≤ _
          rw [(h2 op.target).wf.len, (h2 op.target).size, nb_le_iff h.pos]
          exact hlen
        funext k
        unfold upd grown
        rw [if_pos this]
        split
        · next hk => rw [hk]
        · rfl
      have hcap' : getCapacity s' d = getCapacity s d := by unfold getCapacity; rw [hcap]
      obtain ⟨s'', e4, h6, h7⟩ := ih h2 h3 (fun y hy => hL y (by simp [hy])) hv.2 (by rw [hcap']; exact hw.2)
      refine ⟨s'', ?_, h6, h7.trans hcap⟩
      unfold calls
      rw [X.bind_done e2]
      exact e4
    · unfold call at e2
      rw [e1] at e2
      cases e2

/-- As long as the size stays within the capacity, operations on a bitset in place need no memory: whatever the allocators say, they succeed, do what they do without failures, and leave
the capacity as it is. -/
theorem C147_reserved (h : IsBlockWidth w) {s : Vars w} {τ : Nat → List Bool} (hr : RunsCap s τ) (room : Nat → Nat) (d : Nat) (L : List (Grant × Op w))
    (hp : ∀ x ∈ L, InPlace x.2 = true ∧ x.2.target = d) (hv : ValidHistory τ (L.map Prod.snd)) (hw : Within d (getCapacity s d) τ (L.map Prod.snd)) :
    ∃ s', calls room L s = .done s' () ∧ (∀ k, Shows (s'.bits k) (specRun τ (L.map Prod.snd) k)) ∧ ∀ k, getCapacity s' k = getCapacity s k := by
  obtain ⟨s', e, h1, h2⟩ := reserved_aux h room d L (hr.good h).1 (hr.good h).2 hp hv hw
  exact ⟨s', e, fun k => (h1 k).shows h, fun k => by unfold getCapacity; rw [h2]⟩

/-- The capacity is exact: with an allocator that gives nothing, an operation in place succeeds if and only if the size it leads to is at most the capacity. -/
theorem C147_exact (h : IsBlockWidth w) {s : Vars w} {τ : Nat → List Bool} (hr : RunsCap s τ) (room : Nat → Nat) (op : Op w) (hp : InPlace op = true) (hv : op.Valid τ) :
    (∃ s', call (fun _ _ => false) room op s = .done s' ()) ↔ (op.spec τ op.target).length ≤ getCapacity s op.target := by
  have hg := hr.good h
  constructor
  · rintro ⟨s', e⟩
    rcases call_cases h (fun _ _ => false) room hg.1 hg.2 op hp hv with ⟨s'', e2, h2, _, _, _, σ', e3, h5⟩ | ⟨s', e2, _⟩
    · have hlen : getBlockCount (σ' op.target) = nb w (op.spec τ op.target).length := by
        rw [← h5]
        show (s''.bits op.target).blocks.length = _
        rw [(h2 op.target).wf.len, (h2 op.target).size]
      have hb := exec_grows h _ s.bits τ hg.1 op hp hv e3
      unfold getCapacity
      rw [← nb_le_iff h.pos, ← hlen]
      rcases hb with hb | ⟨m, hb⟩
      · exact Nat.le_trans hb (hg.2 _)
      · simpa using hb
    · rw [e] at e2; cases e2
  · intro hl
    obtain ⟨s', e, _⟩ := reserved_aux h room op.target [(fun _ _ => false, op)] hg.1 hg.2 (by simp [hp]) ⟨hv, trivial⟩ ⟨hl, trivial⟩
    refine ⟨s', ?_⟩
    have : (call (fun _ _ => false) room op >>= fun _ => (pure () : X (Vars w) Unit)) s = .done s' () := e
    cases e2 : call (fun _ _ => false) room op s with
    | done s'' u => rw [X.bind_done e2] at this; rw [← this]; rfl
    | thrown s'' => rw [X.bind_thrown e2] at this; cases this
    | fail x => rw [X.bind_fail e2] at this; cases this

/-- No operation in place makes the capacity smaller, whether it succeeds or throws. -/
theorem C147_never_smaller (h : IsBlockWidth w) {s : Vars w} {τ : Nat → List Bool} (hr : RunsCap s τ) (alloc : Grant) (room : Nat → Nat) (op : Op w) (hp : InPlace op = true) (hv : op.Valid τ) :
    ∃ s', (call alloc room op s = .done s' () ∨ call alloc room op s = .thrown s') ∧ ∀ k, getCapacity s k ≤ getCapacity s' k := by
  rcases call_cases h alloc room (hr.good h).1 (hr.good h).2 op hp hv with ⟨s', e, _, _, h1, _⟩ | ⟨s', e, h1, _⟩
  · exact ⟨s', Or.inl e, fun k => Nat.mul_le_mul_right _ (h1 k)⟩
  · exact ⟨s', Or.inr e, fun k => Nat.mul_le_mul_right _ (h1 k)⟩

/-- `Clear` does not change the capacity. -/
theorem C147_clear (h : IsBlockWidth w) {s : Vars w} {τ : Nat → List Bool} (hr : RunsCap s τ) (alloc : Grant) (room : Nat → Nat) (d : Nat) :
    ∃ s', call alloc room (.clear d) s = .done s' () ∧ getSize (s'.bits d) = 0 ∧ ∀ k, getCapacity s' k = getCapacity s k := by
  obtain ⟨s', e, h1, h2⟩ := C147_reserved h hr room d [(alloc, .clear d)] (by simp [InPlace, Op.target]) ⟨trivial, trivial⟩ ⟨by simp [Op.spec, upd, Op.target, Op.specResult], trivial⟩
  refine ⟨s', ?_, ?_, h2⟩
  · have : (call alloc room (.clear d) >>= fun _ => (pure () : X (Vars w) Unit)) s = .done s' () := e
    cases e2 : call alloc room (.clear d) s with
    | done s'' u => rw [X.bind_done e2] at this; rw [← this]; rfl
    | thrown s'' => rw [X.bind_thrown e2] at this; cases this
    | fail x => rw [X.bind_fail e2] at this; cases this
  · have := (h1 d).1
    simpa [specRun, Op.spec, upd, Op.target, Op.specResult] using this

/-! Examples -/

/-- A bitset with 20 bits reserved, which are used for three operations with an allocator that gives nothing. -/
example : ∃ s s' : Vars 8, RunsCap s (fun _ => []) ∧
    calls (fun _ => 0) [(fun _ _ => false, .resize 0 17 true), (fun _ _ => false, .appendBits 0 8 0x5#8 3), (fun _ _ => false, .clear 0)] s = .done s' () ∧ getCapacity s' 0 = 24 := by
  have h : IsBlockWidth 8 := ⟨3, rfl⟩
  have h0 : RunsCap (w := 8) ⟨fun _ => empty, fun _ => 0⟩ (fun _ => []) := .start _
  have h1 : RunsCap (w := 8) ⟨fun _ => empty, upd (fun _ => 0) 0 3⟩ (fun _ => []) := .reserved (fun _ _ => true) (fun _ => 0) 0 20 h0 rfl
  obtain ⟨s', e, _, h2⟩ := C147_reserved h h1 (fun _ => 0) 0 [(fun _ _ => false, .resize 0 17 true), (fun _ _ => false, .appendBits 0 8 0x5#8 3), (fun _ _ => false, .clear 0)]
    (by intro x hx; simp at hx; rcases hx with rfl | rfl | rfl <;> exact ⟨rfl, rfl⟩)
    ⟨trivial, ⟨Or.inr (by intro i h1 h2; simp [Op.spec, upd, Op.target, Op.specResult, Seq.resize] at h2; revert i; decide), Or.inl (by decide)⟩, trivial, trivial⟩
    ⟨by decide, by decide, by decide, trivial⟩
  exact ⟨_, s', h1, e, (h2 0).trans rfl⟩

end Verif.BitsetAlloc
