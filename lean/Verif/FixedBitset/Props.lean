import Verif.FixedBitset.Lemmas
import Verif.FixedBitset.Spec
import Verif.Bitset.PropsHistory
import Verif.FixedVector.Props

/-!
# C92: bitsets of fixed capacity
-/

namespace Verif.FixedBitset
open Verif.Cpp Verif.Bitset

variable {w : Nat}

theorem nb_le_iff (hw : 0 < w) {n N : Nat} : nb w n ≤ N ↔ n ≤ N * w := by
  rw [nb_eq_ceil hw]
  constructor
  · intro h
    have h1 := Nat.div_add_mod (n + w - 1) w
    have h2 := Nat.mod_lt (n + w - 1) hw
    have h3 : w * ((n + w - 1) / w) ≤ w * N := Nat.mul_le_mul_left _ h
    rw [Nat.mul_comm N w]
    omega
  · intro h
    have : (n + w - 1) / w < N + 1 := by
      rw [Nat.div_lt_iff_lt_mul hw, Nat.succ_mul]
      omega
    omega

theorem hasL_fits {b : Bitset w} {l : List Bool} (hw : 0 < w) (h : HasL b l) (N : Nat) : nblocks b ≤ N ↔ l.length ≤ N * w := by
  unfold nblocks
  rw [Has.len h, nb_le_iff hw]

theorem result_bounded (h : IsBlockWidth w) (N : Nat) (σ : Nat → Bitset w) (τ : Nat → List Bool) (hσ : ∀ k, HasL (σ k) (τ k))
    (hN : ∀ k, nblocks (σ k) ≤ N) (op : Op w) (hv : op.Valid τ) (hs : ∀ d, op ≠ .copy d d) :
    Bounded N nblocks (result N σ op) (op.result σ) := by
  have hw := h.pos
  have keep : ∀ d, (op.specResult τ).length = (τ d).length → Bounded N nblocks (op.result σ) (op.result σ) := by
    intro d hd
    obtain ⟨b, e, hb⟩ := result_ok h σ τ hσ op hv
    refine Bounded.same (fun r e' => ?_)
    rw [e] at e'
    injection e' with e'
    subst e'
    rw [hasL_fits hw hb, hd, ← hasL_fits hw (hσ d)]
    exact hN d
  cases op with
  | construct d => exact Bounded.same (fun r e => by injection e with e; subst e; exact Nat.zero_le _)
  | ofSize d n v => exact resize_bounded N _ n v
  | ofString d s => exact ofString_bounded N s
  | ofInt d t v => exact ofInt_bounded h N false v
  | copy d a =>
    have : a ≠ d := fun e => hs d (by rw [e])
    simp only [result, if_neg this]
    exact keep a rfl
  | swap d a => exact keep a rfl
  | clear d => exact Bounded.same (fun r e => by injection e with e; subst e; exact Nat.zero_le _)
  | resize d n v => exact resize_bounded N _ n v
  | setAll d v => exact keep d (by simp [Op.specResult])
  | resetAll d => exact keep d (by simp [Op.specResult])
  | set d i v => exact keep d (by simp [Op.specResult])
  | reset d i => exact keep d (by simp [Op.specResult])
  | flip d => exact keep d (by simp [Op.specResult])
  | unboundedSet d i v => exact unboundedSet_bounded N _ (hN d) i v
  | unboundedReset d i => exact unboundedSet_bounded N _ (hN d) i false
  | setBlock d i x => exact keep d (by simp [Op.specResult, Seq.setBlock])
  | shiftLeft d p => exact keep d (by simp [Op.specResult, Seq.shiftLeft]; omega)
  | shiftRight d p => exact keep d (by simp [Op.specResult, Seq.shiftRight]; omega)
  | reverse d => exact keep d (by simp [Op.specResult])
  | performsAND d a b => exact performsAND_bounded N _ _ _
  | performsOR d a b => exact performsMerge_bounded N _ _ _ _
  | performsXOR d a b => exact performsMerge_bounded N _ _ _ _
  | performsNOT d a => exact performsNOT_bounded N _ _
  | opAnd d a b => exact performsAND_bounded N _ _ _
  | opOr d a b => exact performsMerge_bounded N _ _ _ _
  | opXor d a b => exact performsMerge_bounded N _ _ _ _
  | opNot d a => exact performsNOT_bounded N _ _
  | proxy d i u => exact keep d (by simp [Op.specResult])
  | proxyBit d i a j => exact keep d (by simp [Op.specResult])
  | appendBits d t v n => exact appendBits_bounded N _ (hN d) v n
  | write d mem seq n =>
    exact Bounded.andThen (write_bounded N _ (hN d) mem seq n) (fun r r' _ e => by injection e with e; subst e; rfl)

theorem exec_bounded (h : IsBlockWidth w) (N : Nat) (σ : Nat → Bitset w) (τ : Nat → List Bool) (hσ : ∀ k, HasL (σ k) (τ k))
    (hN : ∀ k, (τ k).length ≤ N * w) (op : Op w) (hv : op.Valid τ) (hs : ∀ d, op ≠ .copy d d) :
    ((op.specResult τ).length ≤ N * w → ∃ σ', exec N σ op = .ok σ' ∧ ∀ k, HasL (σ' k) (op.spec τ k)) ∧
    (N * w < (op.specResult τ).length → exec N σ op = .error .assert) := by
  have hw := h.pos
  obtain ⟨b, e, hb⟩ := result_ok h σ τ hσ op hv
  obtain ⟨σ', e', h'⟩ := exec_ok h σ τ hσ op hv
  have hbd := result_bounded h N σ τ hσ (fun k => (hasL_fits hw (hσ k) N).mpr (hN k)) op hv hs b e
  rw [hasL_fits hw hb] at hbd
  constructor
  · intro hl
    refine ⟨σ', ?_, h'⟩
    unfold Op.exec at e'
    unfold exec
    rw [e, ok_bind] at e'
    rw [hbd.1 hl, ok_bind]
    exact e'
  · intro hl
    unfold exec
    rw [hbd.2 (by rw [← Nat.not_le, hasL_fits hw hb]; omega), err_bind]

theorem specResult_mem (τ : Nat → List Bool) (op : Op w) : op.spec τ op.target = op.specResult τ ∨ ∃ k, op.specResult τ = τ k := by
  cases op <;> first
    | exact Or.inr ⟨_, rfl⟩
    | exact Or.inl (by simp [Op.spec, Op.target, upd])

theorem run_within (h : IsBlockWidth w) (N : Nat) (ops : List (Op w)) (σ : Nat → Bitset w) (τ : Nat → List Bool)
    (hσ : ∀ k, HasL (σ k) (τ k)) (hv : ValidHistory τ ops) (hs : NoSelfCopy ops) (hc : Within (N * w) τ ops) :
    ∃ σ', run N σ ops = .ok σ' ∧ ∀ k, HasL (σ' k) (specRun τ ops k) := by
  induction ops generalizing σ τ with
  | nil => exact ⟨σ, rfl, hσ⟩
  | cons op ops ih =>
    obtain ⟨hv1, hv2⟩ := hv
    obtain ⟨hc1, hc2⟩ := hc
    have hfit : ∀ k, (op.spec τ k).length ≤ N * w := by
      cases ops with
      | nil => exact hc2
      | cons o os => exact hc2.1
    obtain ⟨σ1, e1, h1⟩ := (exec_bounded h N σ τ hσ hc1 op hv1 (fun d e => hs d (by rw [e]; simp))).1 (by
      rcases specResult_mem τ op with h | ⟨k, h⟩
      · rw [← h]; exact hfit _
      · rw [h]; exact hc1 k)
    obtain ⟨σ2, e2, h2⟩ := ih σ1 (op.spec τ) h1 hv2 (fun d hd => hs d (List.mem_cons_of_mem _ hd)) hc2
    exact ⟨σ2, by simp only [run, e1, ok_bind, e2], h2⟩

theorem Within.mono {m n : Nat} (h : m ≤ n) {τ : Nat → List Bool} {ops : List (Op w)} (hc : Within m τ ops) : Within n τ ops := by
  induction ops generalizing τ with
  | nil => exact fun k => Nat.le_trans (hc k) h
  | cons op ops ih => exact ⟨fun k => Nat.le_trans (hc.1 k) h, ih hc.2⟩

theorem capacity_le (hw : 8 ≤ w) (capacity : Nat) : capacity ≤ maxBlocks capacity * w := by
  unfold maxBlocks
  have : (capacity + 7) / 8 * 8 ≤ (capacity + 7) / 8 * w := Nat.mul_le_mul_left _ hw
  omega

/-- C92: in a `FixedBitset<Block, Capacity>` whose blocks have at least 8 bits, every allowed history in which no bitset has more
than `Capacity` bits and none is assigned to itself runs without a failure and has the results of the same operations on
sequences of booleans. -/
theorem C92_history_partial (h : IsBlockWidth w) (h8 : 8 ≤ w) (capacity : Nat) (ops : List (Op w)) (hv : ValidHistory (fun _ => []) ops)
    (hs : NoSelfCopy ops) (hc : Within capacity (fun _ => []) ops) :
    ∃ σ, run (maxBlocks capacity) (fun _ => empty) ops = .ok σ ∧ ∀ k, Shows (σ k) (specRun (fun _ => []) ops k) := by
  obtain ⟨σ, e, hσ⟩ := run_within h (maxBlocks capacity) ops _ _ (fun _ => HasL.empty w) hv hs (hc.mono (capacity_le h8 capacity))
  exact ⟨σ, e, fun k => (hσ k).shows h⟩

/-- A history of bitsets of at most 20 bits. -/
example : ValidHistory (w := 8) (fun _ => [])
    [.ofString 0 "1101".toList, .ofSize 1 11 true, .performsXOR 1 0 1, .shiftLeft 1 3, .proxy 1 4 .flip,
     .appendBits 1 8 0x35#8 7, .performsAND 1 1 1, .setBlock 1 2 0xFF#8, .swap 0 1] := by
  simp only [ValidHistory, Op.Valid, Op.spec, Op.specResult, Op.target, upd, AppendAllowed]
  decide

example : NoSelfCopy (w := 8) [.ofString 0 "1101".toList, .ofSize 1 11 true, .performsXOR 1 0 1, .copy 0 1] := by
  intro d hd
  simp at hd
  omega

example : Within (w := 8) 20 (fun _ => [])
    [.ofString 0 "1101".toList, .ofSize 1 11 true, .performsXOR 1 0 1, .shiftLeft 1 3, .appendBits 1 8 0x35#8 7] := by
  simp only [Within, Op.spec, Op.specResult, Op.target, upd]
  refine ⟨?_, ?_, ?_, ?_, ?_, ?_⟩ <;> intro k <;> rcases k with _ | _ | k <;> simp <;> decide

/-- C92: exactly: after such a history, an allowed call gives the sequence of the specification if that one fits in the blocks of
the container, and otherwise fails its assertion. -/
theorem C92_next (h : IsBlockWidth w) (capacity : Nat) (ops : List (Op w)) (op : Op w)
    (hv : ValidHistory (fun _ => []) ops) (hs : NoSelfCopy ops) (hc : Within (maxBlocks capacity * w) (fun _ => []) ops)
    (hop : op.Valid (specRun (fun _ => []) ops)) (hself : ∀ d, op ≠ .copy d d) :
    ((op.specResult (specRun (fun _ => []) ops)).length ≤ maxBlocks capacity * w →
      ∃ σ, run (maxBlocks capacity) (fun _ => empty) (ops ++ [op]) = .ok σ ∧ ∀ k, Shows (σ k) (op.spec (specRun (fun _ => []) ops) k)) ∧
    (maxBlocks capacity * w < (op.specResult (specRun (fun _ => []) ops)).length →
      run (maxBlocks capacity) (fun _ => empty) (ops ++ [op]) = .error .assert) := by
  obtain ⟨σ, e, hσ⟩ := run_within h (maxBlocks capacity) ops _ _ (fun _ => HasL.empty w) hv hs hc
  have hlast : ∀ (ops : List (Op w)) (τ : Nat → List Bool), Within (maxBlocks capacity * w) τ ops →
      ∀ k, (specRun τ ops k).length ≤ maxBlocks capacity * w := by
    intro ops
    induction ops with
    | nil => intro τ hc; exact hc
    | cons o os ih => intro τ hc; exact ih _ hc.2
  have happ : ∀ (ops : List (Op w)) (σ0 σ : Nat → Bitset w), run (maxBlocks capacity) σ0 ops = .ok σ →
      run (maxBlocks capacity) σ0 (ops ++ [op]) = exec (maxBlocks capacity) σ op := by
    intro ops
    induction ops with
    | nil =>
      intro σ0 σ e
      injection e with e
      subst e
      simp only [List.nil_append, run]
      cases exec (maxBlocks capacity) σ0 op <;> rfl
    | cons o os ih =>
      intro σ0 σ e
      obtain ⟨σ1, e1, e⟩ := bind_eq_ok e
      simp only [List.cons_append, run, e1, ok_bind]
      exact ih σ1 σ e
  have hx := exec_bounded h (maxBlocks capacity) σ _ hσ (hlast ops _ hc) op hop hself
  rw [happ ops _ σ e]
  refine ⟨fun hl => ?_, hx.2⟩
  obtain ⟨σ', e', h'⟩ := hx.1 hl
  exact ⟨σ', e', fun k => (h' k).shows h⟩

/-- C92: the constructor from an integer (signed or not) gives what the one of `Bitset` gives if that fits in the blocks of the container,
and otherwise fails its assertion. -/
theorem C92_ofInt (h : IsBlockWidth w) (capacity : Nat) {t : Nat} (sg : Bool) (v : BitVec t) {b : Bitset w} (hb : Bitset.ofInt sg v = .ok b) :
    (getBlockCount b ≤ maxBlocks capacity → ofInt (maxBlocks capacity) sg v = .ok b) ∧
    (maxBlocks capacity < getBlockCount b → (ofInt (maxBlocks capacity) sg v : M (Bitset w)) = .error .assert) :=
  ofInt_bounded h _ sg v b hb

/-- -3 in a block of 32 bits. -/
example : (Bitset.ofInt true 0xFD#8 : M (Bitset 32)) = .ok ⟨[0xFFFFFFFD#32], 8⟩ := by decide

/-- C92 is false of the capacity as a limit: with blocks of more than 8 bits a `FixedBitset<Block, Capacity>` accepts sizes beyond
`Capacity`, up to as many times more as there are bytes in a block. -/
theorem C92_limit_violated (h : IsBlockWidth w) (h8 : 8 < w) (capacity : Nat) (hpos : 0 < capacity) :
    ∃ n, capacity < n ∧ ∃ σ, run (maxBlocks capacity) (fun _ => (empty : Bitset w)) [.ofSize 0 n true] = .ok σ ∧
      Shows (σ 0) (List.replicate n true) := by
  refine ⟨maxBlocks capacity * w, ?_, ?_⟩
  · have h1 : maxBlocks capacity * 9 ≤ maxBlocks capacity * w := Nat.mul_le_mul_left _ h8
    unfold maxBlocks at *
    omega
  · obtain ⟨σ, e, hσ⟩ := (C92_next (w := w) h capacity [] (.ofSize 0 (maxBlocks capacity * w) true) trivial (by intro d; simp)
      (fun k => Nat.zero_le _) trivial (by intro d; simp)).1 (by simp [Op.specResult])
    refine ⟨σ, e, ?_⟩
    have := hσ 0
    simpa [Op.spec, Op.target, upd, Op.specResult, specRun] using this

/-- C92 is false of self-assignment: the bitset keeps its size but loses its blocks, so that none of its bits can be read or set. -/
theorem C92_self_violated (h : IsBlockWidth w) (capacity : Nat) (ops : List (Op w)) (hv : ValidHistory (fun _ => []) ops)
    (hs : NoSelfCopy ops) (hc : Within (maxBlocks capacity * w) (fun _ => []) ops) (d : Nat) :
    ∃ σ σ', run (maxBlocks capacity) (fun _ => empty) ops = .ok σ ∧ exec (maxBlocks capacity) σ (.copy d d) = .ok σ' ∧
      getSize (σ' d) = (specRun (fun _ => []) ops d).length ∧ getBlockCount (σ' d) = 0 ∧
      ∀ i v, (∃ e, test (σ' d) i = .error e) ∧ (∃ e, Bitset.set (σ' d) i v = .error e) := by
  obtain ⟨σ, e, hσ⟩ := run_within h (maxBlocks capacity) ops _ _ (fun _ => HasL.empty w) hv hs hc
  refine ⟨σ, upd σ d (copySelf (σ d)), e, by simp [exec, result, Op.target], ?_, ?_, ?_⟩
  · simp only [upd, if_true, getSize, copySelf]
    exact Has.size (hσ d)
  · simp [upd, getBlockCount, copySelf]
  · intro i v
    simp only [upd, if_true, copySelf, test, Bitset.set, rd, List.getElem?_nil]
    constructor <;> by_cases hi : i < (σ d).bitCount <;> simp [hi]

/-- A bitset of 11 bits to assign to itself. -/
example : ValidHistory (w := 8) (fun _ => []) [.ofSize 1 11 true] ∧ NoSelfCopy (w := 8) [.ofSize 1 11 true] ∧
    Within (w := 8) (maxBlocks 16 * 8) (fun _ => []) [.ofSize 1 11 true] := by
  refine ⟨⟨trivial, trivial⟩, by intro d; simp, ?_, ?_⟩ <;> intro k <;> by_cases hk : k = 1 <;>
    simp [Op.spec, Op.target, Op.specResult, upd, maxBlocks, hk]

/-! ### The container -/

/-- The effect of the container members used above is that of the model of `FixedVector`: `resize` and `push_back` of a vector of
capacity `N` without fallback, and self-assignment. -/
theorem C92_container {K : FixedVector.Cfg (BitVec w)} (hF : K.hasFallback = false) {s : FixedVector.St (BitVec w)} {l : List (BitVec w)}
    (hs : FixedVector.Reachable K s l) :
    (∀ n v, match cresize K.capacity l n v with
      | .ok l' => ∃ s', FixedVector.resize K n (.value v) s = .done s' () ∧ FixedVector.Shows K s' l'
      | .error e => FixedVector.resize K n (.value v) s = .fail e) ∧
    (∀ x, match cpush K.capacity l x with
      | .ok l' => ∃ s', FixedVector.emplaceBack K (.value x) s = .done s' l.length ∧ FixedVector.Shows K s' l'
      | .error e => FixedVector.emplaceBack K (.value x) s = .fail e) ∧
    (∃ s', FixedVector.copyAssignSelf K s = .done s' () ∧ FixedVector.Shows K s' (copySelf (⟨l, 0⟩ : Bitset w)).blocks) := by
  have hr := hs.repr
  have hinl : s = FixedVector.inl K l none ∧ l.length ≤ K.capacity := by
    rcases hr with h | ⟨_, h⟩
    · exact h
    · rw [hF] at h; cases h
  refine ⟨?_, ?_, ?_⟩
  · intro n v
    by_cases hn : n ≤ K.capacity
    · obtain ⟨s', e, r⟩ := FixedVector.resize_repr n v hr (.inr hn)
      simp only [cresize, hn, decide_true, assert_true, ok_bind, pure_ok]
      exact ⟨s', e, FixedVector.shows_repr r⟩
    · simp only [cresize, hn, decide_false, assert_false, err_bind]
      rw [hinl.1, FixedVector.resize, X.bind_done (FixedVector.using_inl _ _)]
      simp [hF, FixedVector.resizeInline, hn, X.bind_run]
  · intro x
    by_cases hn : l.length < K.capacity
    · obtain ⟨s', e, r⟩ := FixedVector.emplaceBack_repr x hr (.inr hn)
      simp only [cpush, hn, decide_true, assert_true, ok_bind, pure_ok]
      exact ⟨s', e, FixedVector.shows_repr r⟩
    · simp only [cpush, hn, decide_false, assert_false, err_bind]
      exact ((FixedVector.C25_out_of_range hs x 0).1 ⟨hF, by omega⟩).1
  · exact (FixedVector.C27_self_violated hs (by rw [hinl.1, FixedVector.usesFallback_inl])).1

end Verif.FixedBitset
