import Verif.Bitset.LemmasAppend
import Verif.Bitset.History

/-!
# From bits to sequences of booleans
-/

namespace Verif.Bitset
open Verif.Cpp

variable {w : Nat}

/-- `b` is well formed and its bits are the sequence `l`. -/
def HasL (b : Bitset w) (l : List Bool) : Prop := Has b l.length (fun i => l.getD i false)

theorem HasL.wf {b : Bitset w} {l} (h : HasL b l) : WF b := Has.wf h
theorem HasL.size {b : Bitset w} {l} (h : HasL b l) : b.bitCount = l.length := Has.size h

theorem HasL.bit {b : Bitset w} {l} (h : HasL b l) (i : Nat) : bitAt b.blocks i = l.getD i false := by
  rw [Has.bits h]
  by_cases hi : i < l.length
  · simp [hi]
  · simp [hi, List.getD]

theorem HasL.of {b : Bitset w} {n f} (h : Has b n f) {l : List Bool} (hl : l.length = n) (e : ∀ i, i < n → f i = l.getD i false) : HasL b l := by
  subst hl
  exact h.congr e

theorem getD_lt {l : List Bool} {i : Nat} (h : i < l.length) : l.getD i false = l[i] := by
  simp [List.getD, List.getElem?_eq_getElem h]

theorem getD_ge {l : List Bool} {i : Nat} (h : l.length ≤ i) : l.getD i false = false := by
  simp [List.getD, List.getElem?_eq_none h]

theorem getD_range_map (f : Nat → Bool) (n i : Nat) : ((List.range n).map f).getD i false = (decide (i < n) && f i) := by
  by_cases h : i < n
  · rw [getD_lt (by simpa using h)]; simp [h]
  · rw [getD_ge (by simpa using h)]; simp [h]

theorem HasL.shows (h : IsBlockWidth w) {b : Bitset w} {l} (hb : HasL b l) : Shows b l := by
  refine ⟨hb.size, ?_⟩
  intro i hi
  rw [test_ok h b hb.wf i (by rw [hb.size]; exact hi), hb.bit, getD_lt hi]

theorem HasL.of_shows (h : IsBlockWidth w) {b : Bitset w} (wf : WF b) {l} (hs : Shows b l) : HasL b l := by
  refine HasL.of wf hs.1.symm ?_
  intro i hi
  have hi' : i < l.length := by rw [← hs.1]; exact hi
  have := hs.2 i hi'
  rw [test_ok h b wf i hi] at this
  injection this with this
  rw [this, getD_lt hi']

theorem WF.hasL {b : Bitset w} (wf : WF b) : HasL b ((List.range b.bitCount).map (bitAt b.blocks)) := by
  refine HasL.of wf (by simp) ?_
  intro i hi
  rw [getD_range_map]; simp [hi]

/-! ### Elements of the specified sequences -/

theorem getD_append' (l m : List Bool) (i : Nat) : (l ++ m).getD i false = if i < l.length then l.getD i false else m.getD (i - l.length) false := by
  simp only [List.getD, List.getElem?_append]
  split <;> rfl

theorem getD_replicate' (n : Nat) (v : Bool) (i : Nat) : (List.replicate n v).getD i false = (decide (i < n) && v) := by
  simp only [List.getD, List.getElem?_replicate]
  by_cases h : i < n <;> simp [h]

theorem getD_take' (l : List Bool) (n i : Nat) : (l.take n).getD i false = (decide (i < n) && l.getD i false) := by
  simp only [List.getD, List.getElem?_take]
  by_cases h : i < n <;> simp [h]

theorem getD_drop' (l : List Bool) (n i : Nat) : (l.drop n).getD i false = l.getD (n + i) false := by
  simp only [List.getD, List.getElem?_drop]

theorem getD_set' (l : List Bool) (k : Nat) (v : Bool) (i : Nat) (hk : k < l.length) : (l.set k v).getD i false = if i = k then v else l.getD i false := by
  simp only [List.getD, List.getElem?_set]
  by_cases h : i = k
  · subst h; simp [hk]
  · simp [h, Ne.symm h]

theorem getD_map_not (l : List Bool) (i : Nat) (hi : i < l.length) : (l.map (fun v => !v)).getD i false = !(l.getD i false) := by
  rw [getD_lt (by simpa using hi), getD_lt hi, List.getElem_map]

theorem getD_reverse' (l : List Bool) (i : Nat) (hi : i < l.length) : l.reverse.getD i false = l.getD (l.length - 1 - i) false := by
  simp [List.getD, List.getElem?_reverse hi]

theorem resize_length (l : List Bool) (n : Nat) (v : Bool) : (Seq.resize l n v).length = n := by
  simp [Seq.resize]; omega

theorem zip_length (f) (l m : List Bool) : (Seq.zip f l m).length = max l.length m.length := by simp [Seq.zip]

theorem zip_getD (f : Bool → Bool → Bool) (l m : List Bool) (i : Nat) (hi : i < max l.length m.length) :
    (Seq.zip f l m).getD i false = f (l.getD i false) (m.getD i false) := by
  unfold Seq.zip
  rw [getD_range_map]; simp only [hi, decide_true, Bool.true_and]

theorem HasL.empty (w : Nat) : HasL (empty : Bitset w) [] := HasL.of (has_empty w) rfl (by intro i hi; omega)

theorem HasL.operand {σ : Nat → Bitset w} {τ : Nat → List Bool} (h : ∀ k, HasL (σ k) (τ k)) (d a : Nat) :
    HasL ((operand σ d a).get (σ d)) (τ a) := by
  unfold Bitset.operand
  by_cases e : a = d
  · subst e; rw [if_pos rfl]; exact h a
  · rw [if_neg e]; exact h a

theorem log2_spec {t : Nat} (v : BitVec t) (hv : v ≠ 0#t) :
    v.getLsbD v.toNat.log2 = true ∧ ∀ i, v.toNat.log2 < i → v.getLsbD i = false := by
  have hne : v.toNat ≠ 0 := by
    intro h; apply hv; apply BitVec.eq_of_toNat_eq; simpa using h
  constructor
  · rw [← BitVec.testBit_toNat, Nat.testBit_log2 hne]
  · intro i hi
    rw [← BitVec.testBit_toNat]
    apply Nat.testBit_lt_two_pow
    exact Nat.lt_of_lt_of_le (Nat.lt_log2_self) (Nat.pow_le_pow_right (by omega) hi)

theorem zip_ok (f : Bool → Bool → Bool) {x y : Bitset w} {l m : List Bool} (hx : HasL x l) (hy : HasL y m) {b' : Bitset w}
    (h : Has b' (max x.bitCount y.bitCount) (fun i => f (bitAt x.blocks i) (bitAt y.blocks i))) : HasL b' (Seq.zip f l m) := by
  rw [hx.size, hy.size] at h
  refine HasL.of h (zip_length ..) ?_
  intro i hi
  rw [zip_getD f l m i hi, hx.bit, hy.bit]

theorem not_ok {x : Bitset w} {l : List Bool} (hx : HasL x l) {b' : Bitset w}
    (h : Has b' x.bitCount (fun i => !(bitAt x.blocks i))) : HasL b' (l.map (fun v => !v)) := by
  rw [hx.size] at h
  refine HasL.of h (by simp) ?_
  intro i hi
  rw [getD_map_not l i hi, hx.bit]

theorem setL_ok {x : Bitset w} {l : List Bool} (hx : HasL x l) (k : Nat) (hk : k < l.length) (v : Bool) {b' : Bitset w}
    (h : Has b' x.bitCount (fun i => if i = k then v else bitAt x.blocks i)) : HasL b' (l.set k v) := by
  rw [hx.size] at h
  refine HasL.of h (by simp) ?_
  intro i hi
  rw [getD_set' l k v i hk, hx.bit]

theorem proxy_ok (h : IsBlockWidth w) (b : Bitset w) (l : List Bool) (hb : HasL b l) (i : Nat) (hi : i < l.length) (u : ProxyUse) :
    ∃ b', ProxyUse.exec u ⟨i / w, 1#w <<< (i % w)⟩ b = .ok b' ∧ HasL b' (l.set i (u.spec (l.getD i false))) := by
  have hi' : i < b.bitCount := by rw [hb.size]; exact hi
  have key : ∀ v, ∃ b', Bit.set ⟨i / w, 1#w <<< (i % w)⟩ b v = .ok b' ∧ HasL b' (l.set i v) := by
    intro v
    rw [bit_set_ok h b hb.wf i hi' v]
    obtain ⟨b', e, hb'⟩ := set_ok h b hb.wf i hi' v
    exact ⟨b', e, setL_ok hb i hi v hb'⟩
  have ht := bit_test_ok h b hb.wf i hi'
  rw [hb.bit] at ht
  cases u with
  | set v => exact key v
  | reset => exact key false
  | flip =>
    obtain ⟨b', e, hb'⟩ := bit_flip_ok h b hb.wf i hi'
    refine ⟨b', e, ?_⟩
    rw [hb.bit] at hb'
    exact setL_ok hb i hi _ hb'
  | assign v => exact key v
  | orAssign v =>
    obtain ⟨b', e, hb'⟩ := key (l.getD i false || v)
    refine ⟨b', ?_, hb'⟩
    cases v <;> simp [ProxyUse.exec, Bit.orAssign, ht] <;> simpa using e
  | andAssign v =>
    obtain ⟨b', e, hb'⟩ := key (l.getD i false && v)
    refine ⟨b', ?_, hb'⟩
    cases v <;> simp [ProxyUse.exec, Bit.andAssign, ht] <;> simpa using e
  | xorAssign v =>
    obtain ⟨b', e, hb'⟩ := key (l.getD i false ^^ v)
    refine ⟨b', ?_, hb'⟩
    cases v <;> simp [ProxyUse.exec, Bit.xorAssign, ht] <;> simpa using e
  | subAssign v =>
    obtain ⟨b', e, hb'⟩ := key (l.getD i false && !v)
    refine ⟨b', ?_, hb'⟩
    cases v <;> simp [ProxyUse.exec, Bit.subAssign, ht] <;> simpa using e

/-- Every allowed operation succeeds and computes the specified sequence. -/
theorem result_ok (h : IsBlockWidth w) (σ : Nat → Bitset w) (τ : Nat → List Bool) (hσ : ∀ k, HasL (σ k) (τ k)) (op : Op w)
    (hv : op.Valid τ) : ∃ b, op.result σ = .ok b ∧ HasL b (op.specResult τ) := by
  have hw := h.pos
  cases op with
  | construct d => exact ⟨_, rfl, HasL.empty w⟩
  | ofSize d n v =>
    obtain ⟨b, e, hb⟩ := resize_ok h empty (has_empty w).wf n v
    refine ⟨b, e, HasL.of hb (by simp [Op.specResult]) ?_⟩
    intro i hi
    simp only [Op.specResult]
    rw [getD_replicate']
    simp [hi, Bitset.empty]
  | ofString d s =>
    obtain ⟨b, e, hb⟩ := ofString_ok (w := w) h s hv
    refine ⟨b, e, HasL.of hb (by simp [Op.specResult, Seq.ofString]) ?_⟩
    intro i hi
    simp only [Op.specResult, Seq.ofString, List.getD, List.getElem?_map, List.getElem?_reverse hi]
    rw [List.getElem?_eq_getElem (by omega)]
    rfl
  | ofInt d t v =>
    obtain ⟨b, n, e, h1, h2, h3, h4, h5⟩ := ofInt_ok h (t := t) hv v
    have hn : n = if t ≤ w then t else v.toNat.log2 + if v = 0#t then 0 else 1 := by
      by_cases htw : t ≤ w
      · rw [if_pos htw, h2 htw]
      · rw [if_neg htw]
        by_cases hz : v = 0#t
        · subst hz
          rcases h3 (by omega) with h3 | h3
          · simp [h3]
          · simp at h3
        · rw [if_neg hz]
          obtain ⟨g1, g2⟩ := log2_spec v hz
          rcases h3 (by omega) with h3 | h3
          · rw [h5 _ (by omega)] at g1; simp at g1
          · have a1 : ¬ n ≤ v.toNat.log2 := fun hle => by rw [h5 _ hle] at g1; simp at g1
            have a2 : ¬ v.toNat.log2 < n - 1 := fun hlt => by rw [g2 _ hlt] at h3; simp at h3
            omega
    refine ⟨b, e, HasL.of h4 (by simp [Op.specResult, Seq.lowBits, ← hn]) ?_⟩
    intro i hi
    simp only [Op.specResult, Seq.lowBits, ← hn]
    rw [getD_range_map]; simp [hi]
  | copy d a => exact ⟨_, rfl, hσ a⟩
  | swap d a => exact ⟨_, rfl, hσ a⟩
  | clear d => exact ⟨_, rfl, HasL.empty w⟩
  | resize d n v =>
    obtain ⟨b, e, hb⟩ := resize_ok h (σ d) (hσ d).wf n v
    refine ⟨b, e, HasL.of hb (resize_length ..) ?_⟩
    intro i hi
    simp only [Op.specResult, Seq.resize]
    rw [getD_append', (hσ d).bit, (hσ d).size, getD_take', getD_replicate', List.length_take]
    by_cases h1 : i < (τ d).length
    · rw [if_pos h1, if_pos (by omega)]; simp [hi]
    · rw [if_neg h1, if_neg (by omega)]
      rw [show decide (i - min n (τ d).length < n - (τ d).length) = true by simp; omega]; simp
  | setAll d v =>
    obtain ⟨b, e, hb⟩ := setAll_ok h (σ d) (hσ d).wf v
    refine ⟨b, e, HasL.of hb (by simp [Op.specResult, (hσ d).size]) ?_⟩
    intro i hi
    simp only [Op.specResult]
    rw [getD_replicate', ← (hσ d).size]; simp [hi]
  | resetAll d =>
    obtain ⟨b, e, hb⟩ := resetAll_ok h (σ d) (hσ d).wf
    refine ⟨b, e, HasL.of hb (by simp [Op.specResult, (hσ d).size]) ?_⟩
    intro i hi
    simp only [Op.specResult]
    rw [getD_replicate']; simp
  | set d i v =>
    obtain ⟨b, e, hb⟩ := set_ok h (σ d) (hσ d).wf i (by rw [(hσ d).size]; exact hv) v
    exact ⟨b, e, setL_ok (hσ d) i hv v hb⟩
  | reset d i =>
    obtain ⟨b, e, hb⟩ := set_ok h (σ d) (hσ d).wf i (by rw [(hσ d).size]; exact hv) false
    exact ⟨b, e, setL_ok (hσ d) i hv false hb⟩
  | flip d =>
    obtain ⟨b, e, hb⟩ := flip_ok h (σ d) (hσ d).wf
    exact ⟨b, e, not_ok (hσ d) hb⟩
  | unboundedSet d k v =>
    obtain ⟨b, e, hb⟩ := unboundedSet_ok h (σ d) (hσ d).wf k v
    refine ⟨b, e, ?_⟩
    rw [(hσ d).size] at hb
    simp only [Op.specResult, Seq.unboundedSet]
    by_cases hk : k < (τ d).length
    · rw [if_pos (Or.inl hk)] at hb
      rw [if_pos hk]
      refine HasL.of hb (by simp) ?_
      intro i hi
      rw [getD_set' _ _ _ _ hk, if_pos hi, (hσ d).bit]
    · rw [if_neg hk]
      cases v with
      | false =>
        rw [if_pos (Or.inr rfl)] at hb
        refine HasL.of hb rfl ?_
        intro i hi
        rw [if_neg (by omega), if_pos hi, (hσ d).bit]; simp
      | true =>
        rw [if_neg (by simp [hk])] at hb
        refine HasL.of hb (by simp; omega) ?_
        intro i hi
        simp only [if_true]
        rw [getD_append', getD_append', getD_replicate', List.length_append, List.length_replicate, (hσ d).bit]
        by_cases c1 : i = k
        · rw [if_pos c1, if_neg (by omega), show i - ((τ d).length + (k - (τ d).length)) = 0 by omega]; rfl
        · rw [if_neg c1, if_pos (show i < (τ d).length + (k - (τ d).length) by omega)]
          split
          · rfl
          · simp
  | unboundedReset d k =>
    obtain ⟨b, e, hb⟩ := unboundedSet_ok h (σ d) (hσ d).wf k false
    refine ⟨b, e, ?_⟩
    rw [if_pos (Or.inr rfl), (hσ d).size] at hb
    refine HasL.of hb (by simp [Op.specResult]) ?_
    intro i hi
    simp only [Op.specResult]
    rw [if_pos hi, (hσ d).bit]
    by_cases hk : k < (τ d).length
    · rw [getD_set' _ _ _ _ hk]
    · rw [if_neg (by omega), List.set_eq_of_length_le (by omega)]
  | setBlock d k x =>
    obtain ⟨b, e, hb⟩ := setBlock_ok h (σ d) (hσ d).wf k x (by
      rw [(hσ d).wf.len, (hσ d).size, nb_eq_ceil hw]; exact hv)
    refine ⟨b, e, ?_⟩
    rw [(hσ d).size] at hb
    refine HasL.of hb (by simp [Op.specResult, Seq.setBlock]) ?_
    intro i hi
    simp only [Op.specResult, Seq.setBlock]
    rw [getD_lt (by simpa using hi), List.getElem_mapIdx, (hσ d).bit, getD_lt hi]
  | shiftLeft d p =>
    obtain ⟨b, e, hb⟩ := shiftLeft_ok h (σ d) (hσ d).wf p
    refine ⟨b, e, ?_⟩
    rw [(hσ d).size] at hb
    refine HasL.of hb (by simp [Op.specResult, Seq.shiftLeft]; omega) ?_
    intro i hi
    simp only [Op.specResult, Seq.shiftLeft]
    rw [getD_append', getD_replicate', getD_take', List.length_replicate, (hσ d).bit]
    by_cases c : i < p
    · rw [if_pos c, if_pos (by omega)]; simp
    · rw [if_neg c, if_neg (by omega), show min p (τ d).length = p by omega]
      rw [show decide (i - p < (τ d).length - p) = true by simp; omega]; simp
  | shiftRight d p =>
    obtain ⟨b, e, hb⟩ := shiftRight_ok h (σ d) (hσ d).wf p
    refine ⟨b, e, ?_⟩
    rw [(hσ d).size] at hb
    refine HasL.of hb (by simp [Op.specResult, Seq.shiftRight]; omega) ?_
    intro i hi
    simp only [Op.specResult, Seq.shiftRight]
    rw [getD_append', getD_drop', getD_replicate', List.length_drop, (hσ d).bit]
    by_cases c : i < (τ d).length - p
    · rw [if_pos c, Nat.add_comm]
    · rw [if_neg c, getD_ge (by omega)]; simp
  | reverse d =>
    obtain ⟨b, e, hb⟩ := reverse_ok h (σ d) (hσ d).wf
    refine ⟨b, e, ?_⟩
    rw [(hσ d).size] at hb
    refine HasL.of hb (by simp [Op.specResult]) ?_
    intro i hi
    simp only [Op.specResult]
    rw [getD_reverse' _ _ hi, (hσ d).bit]
  | performsAND d a b =>
    have ha := HasL.operand hσ d a
    have hb := HasL.operand hσ d b
    obtain ⟨r, e, hr⟩ := performsAND_ok h (σ d) (operand σ d a) (operand σ d b) ha.wf hb.wf
    exact ⟨r, e, zip_ok _ ha hb hr⟩
  | performsOR d a b =>
    have ha := HasL.operand hσ d a
    have hb := HasL.operand hσ d b
    obtain ⟨r, e, hr⟩ := performsOR_ok h (σ d) (operand σ d a) (operand σ d b) ha.wf hb.wf
    exact ⟨r, e, zip_ok _ ha hb hr⟩
  | performsXOR d a b =>
    have ha := HasL.operand hσ d a
    have hb := HasL.operand hσ d b
    obtain ⟨r, e, hr⟩ := performsXOR_ok h (σ d) (operand σ d a) (operand σ d b) ha.wf hb.wf
    exact ⟨r, e, zip_ok _ ha hb hr⟩
  | performsNOT d a =>
    have ha := HasL.operand hσ d a
    obtain ⟨r, e, hr⟩ := performsNOT_ok h (σ d) (operand σ d a) ha.wf
    exact ⟨r, e, not_ok ha hr⟩
  | opAnd d a b =>
    obtain ⟨r, e, hr⟩ := performsAND_ok h empty (.other (σ a)) (.other (σ b)) (hσ a).wf (hσ b).wf
    exact ⟨r, e, zip_ok _ (hσ a) (hσ b) hr⟩
  | opOr d a b =>
    obtain ⟨r, e, hr⟩ := performsOR_ok h empty (.other (σ a)) (.other (σ b)) (hσ a).wf (hσ b).wf
    exact ⟨r, e, zip_ok _ (hσ a) (hσ b) hr⟩
  | opXor d a b =>
    obtain ⟨r, e, hr⟩ := performsXOR_ok h empty (.other (σ a)) (.other (σ b)) (hσ a).wf (hσ b).wf
    exact ⟨r, e, zip_ok _ (hσ a) (hσ b) hr⟩
  | opNot d a =>
    obtain ⟨r, e, hr⟩ := performsNOT_ok h empty (.other (σ a)) (hσ a).wf
    exact ⟨r, e, not_ok (hσ a) hr⟩
  | proxy d i u =>
    obtain ⟨r, e, hr⟩ := proxy_ok h (σ d) (τ d) (hσ d) i hv u
    refine ⟨r, ?_, hr⟩
    simp only [Op.result]
    rw [index_ok h (σ d) (hσ d).wf i (by rw [(hσ d).size]; exact hv), ok_bind, e]
  | proxyBit d i a j =>
    obtain ⟨r, e, hr⟩ := set_ok h (σ d) (hσ d).wf i (by rw [(hσ d).size]; exact hv.1) ((τ a).getD j false)
    refine ⟨r, ?_, setL_ok (hσ d) i hv.1 _ hr⟩
    have hi : i < (σ d).bitCount := by rw [(hσ d).size]; exact hv.1
    have hj : j < (σ a).bitCount := by rw [(hσ a).size]; exact hv.2
    simp only [Op.result, Bit.assignBit]
    rw [index_ok h (σ d) (hσ d).wf i hi, ok_bind, index_ok h (σ a) (hσ a).wf j hj, ok_bind, bit_test_ok h (σ a) (hσ a).wf j hj, ok_bind,
      bit_set_ok h (σ d) (hσ d).wf i hi, (hσ a).bit, e]
  | appendBits d t v n =>
    obtain ⟨h1, h2⟩ := hv
    rw [← (hσ d).size] at h1 h2
    rw [← nb_eq_ceil hw, ← nb_eq_ceil hw] at h2
    obtain ⟨r, e, hr⟩ := appendBits_ok h (σ d) (hσ d).wf v n h1 h2
    refine ⟨r, e, ?_⟩
    rw [(hσ d).size] at hr
    refine HasL.of hr (by simp [Op.specResult, Seq.lowBits]) ?_
    intro i hi
    simp only [Op.specResult, Seq.lowBits]
    rw [getD_append', getD_range_map, (hσ d).bit]
    split
    · rfl
    · rw [show decide (i - (τ d).length < n) = true by simp; omega]; simp
  | write d mem seq n =>
    obtain ⟨h1, h2, h3, h4⟩ := hv
    rw [← (hσ d).size] at h4
    obtain ⟨r, e, hr⟩ := write_ok h (σ d) (hσ d).wf mem seq n h1 h2 h3 h4
    refine ⟨r, by simp only [Op.result]; rw [e]; rfl, ?_⟩
    rw [(hσ d).size] at hr
    refine HasL.of hr (by simp [Op.specResult, Seq.stream]) ?_
    intro i hi
    simp only [Op.specResult, Seq.stream]
    rw [getD_append', getD_range_map, (hσ d).bit]
    split
    · rfl
    · rw [show decide (i - (τ d).length < n) = true by simp; omega]; simp

theorem exec_ok (h : IsBlockWidth w) (σ : Nat → Bitset w) (τ : Nat → List Bool) (hσ : ∀ k, HasL (σ k) (τ k)) (op : Op w)
    (hv : op.Valid τ) : ∃ σ', op.exec σ = .ok σ' ∧ ∀ k, HasL (σ' k) (op.spec τ k) := by
  obtain ⟨b, e, hb⟩ := result_ok h σ τ hσ op hv
  have upd_ok : ∀ (σ : Nat → Bitset w) (τ : Nat → List Bool) (d : Nat) (b : Bitset w) (l : List Bool), (∀ k, HasL (σ k) (τ k)) → HasL b l →
      ∀ k, HasL (upd σ d b k) (upd τ d l k) := by
    intro σ τ d b l hσ hb k
    unfold upd
    split
    · exact hb
    · exact hσ k
  unfold Op.exec
  rw [e, ok_bind]
  cases op <;> first
    | exact ⟨_, rfl, upd_ok _ _ _ _ _ hσ hb⟩
    | exact ⟨_, rfl, upd_ok _ _ _ _ _ (upd_ok _ _ _ _ _ hσ hb) (hσ _)⟩

theorem run_ok (h : IsBlockWidth w) (ops : List (Op w)) (σ : Nat → Bitset w) (τ : Nat → List Bool) (hσ : ∀ k, HasL (σ k) (τ k))
    (hv : ValidHistory τ ops) : ∃ σ', run σ ops = .ok σ' ∧ ∀ k, HasL (σ' k) (specRun τ ops k) := by
  induction ops generalizing σ τ with
  | nil => exact ⟨σ, rfl, hσ⟩
  | cons op ops ih =>
    obtain ⟨hv1, hv2⟩ := hv
    obtain ⟨σ1, e1, h1⟩ := exec_ok h σ τ hσ op hv1
    obtain ⟨σ2, e2, h2⟩ := ih σ1 (op.spec τ) h1 hv2
    exact ⟨σ2, by simp only [run, e1, ok_bind, e2], h2⟩

theorem Reachable.wf (h : IsBlockWidth w) {b : Bitset w} (hb : Reachable b) : WF b := by
  obtain ⟨ops, σ, k, hv, e, rfl⟩ := hb
  obtain ⟨σ', e', hσ'⟩ := run_ok h ops _ _ (fun _ => HasL.empty w) hv
  rw [e'] at e
  injection e with e
  subst e
  exact (hσ' k).wf

theorem Reachable.hasL (h : IsBlockWidth w) {b : Bitset w} (hb : Reachable b) {l} (hs : Shows b l) : HasL b l :=
  HasL.of_shows h (hb.wf h) hs

end Verif.Bitset
