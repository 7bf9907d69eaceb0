import Verif.Bytes.Spec

namespace Verif.Bytes
open Verif.Cpp

/-! ## Alignment -/

theorem le_alignUp (n : Nat) {a : Nat} (h : 0 < a) : n ≤ alignUp n a := by
  unfold alignUp
  have h1 := Nat.div_add_mod (n + a - 1) a
  have h2 := Nat.mod_lt (n + a - 1) h
  rw [Nat.mul_comm] at h1
  omega

theorem alignUp_mod (n a : Nat) : alignUp n a % a = 0 := by simp [alignUp]

theorem alignUp_eq {n a : Nat} (h : 0 < a) (hd : n % a = 0) : alignUp n a = n := by
  obtain ⟨k, rfl⟩ := Nat.dvd_of_mod_eq_zero hd
  unfold alignUp
  rw [show a * k + a - 1 = (a - 1) + a * k by omega, Nat.add_mul_div_left _ _ h, Nat.div_eq_of_lt (by omega), Nat.zero_add, Nat.mul_comm]

def Small (a : Nat) : Prop := a = 1 ∨ a = 2 ∨ a = 4 ∨ a = 8

theorem Small.pos {a : Nat} (h : Small a) : 0 < a := by unfold Small at h; omega

theorem Small.max {a b : Nat} (ha : Small a) (hb : Small b) : Small (max a b) ∧ a ∣ max a b ∧ b ∣ max a b := by
  rcases ha with rfl | rfl | rfl | rfl <;> rcases hb with rfl | rfl | rfl | rfl <;> (unfold Small; decide)

mutual
theorem align_small : ∀ (t : CType), t.Valid → Small t.align
  | .int _ k, h => by simpa [CType.align, CType.Valid, Small] using h
  | .flt wide, _ => by cases wide <;> simp [CType.align, Small, fltSize]
  | .bool, _ => Or.inl rfl
  | .struct fs, h => by simpa [CType.align] using alignAll_small fs (by simpa [CType.Valid] using h)
theorem alignAll_small : ∀ (fs : List CType), AllValid fs → Small (alignAll fs)
  | [], _ => Or.inl rfl
  | f :: fs, h => by
    simp only [AllValid] at h
    simp only [alignAll]
    exact ((align_small f h.1).max (alignAll_small fs h.2)).1
end

theorem align_pos {t : CType} (h : t.Valid) : 0 < t.align := (align_small t h).pos

theorem allValid_get {fs : List CType} (h : AllValid fs) {i : Nat} {f : CType} (hi : fs[i]? = some f) : f.Valid := by
  induction fs generalizing i with
  | nil => simp at hi
  | cons g fs ih =>
    simp only [AllValid] at h
    cases i with
    | zero => simp at hi; exact hi ▸ h.1
    | succ i => exact ih h.2 (by simpa using hi)

theorem align_dvd {fs : List CType} (h : AllValid fs) {i : Nat} {f : CType} (hi : fs[i]? = some f) : f.align ∣ alignAll fs := by
  induction fs generalizing i with
  | nil => simp at hi
  | cons g fs ih =>
    simp only [AllValid] at h
    simp only [alignAll]
    have hm := (align_small g h.1).max (alignAll_small fs h.2)
    cases i with
    | zero => simp at hi; subst hi; exact hm.2.1
    | succ i => exact Nat.dvd_trans (ih h.2 (by simpa using hi)) hm.2.2

theorem memberAt_mod {fs : List CType} {i : Nat} {f : CType} (hi : fs[i]? = some f) (pos : Nat) : memberAt fs pos i % f.align = 0 := by
  induction fs generalizing i pos with
  | nil => simp at hi
  | cons g fs ih =>
    cases i with
    | zero => simp at hi; subst hi; exact alignUp_mod _ _
    | succ i => exact ih (by simpa using hi) _

theorem le_endOf {fs : List CType} (h : AllValid fs) (pos : Nat) : pos ≤ endOf fs pos := by
  induction fs generalizing pos with
  | nil => simp [endOf]
  | cons g fs ih =>
    simp only [AllValid] at h
    simp only [endOf]
    have := ih h.2 (alignUp pos g.align + g.size)
    have := le_alignUp pos (align_pos h.1)
    omega

theorem memberAt_bounds {fs : List CType} (h : AllValid fs) {i : Nat} {f : CType} (hi : fs[i]? = some f) (pos : Nat) :
    pos ≤ memberAt fs pos i ∧ memberAt fs pos i + f.size ≤ endOf fs pos := by
  induction fs generalizing i pos with
  | nil => simp at hi
  | cons g fs ih =>
    simp only [AllValid] at h
    have hp := le_alignUp pos (align_pos h.1)
    cases i with
    | zero =>
      simp at hi; subst hi
      exact ⟨hp, le_endOf h.2 _⟩
    | succ i =>
      have := ih h.2 (i := i) (by simpa using hi) (alignUp pos g.align + g.size)
      simp only [memberAt, endOf]
      omega

theorem memberAt_order {fs : List CType} (h : AllValid fs) {i j : Nat} {f g : CType} (hi : fs[i]? = some f) (hj : fs[j]? = some g) (hij : i < j) (pos : Nat) :
    memberAt fs pos i + f.size ≤ memberAt fs pos j := by
  induction fs generalizing i j pos with
  | nil => simp at hi
  | cons e fs ih =>
    simp only [AllValid] at h
    obtain ⟨j, rfl⟩ : ∃ k, j = k + 1 := ⟨j - 1, by omega⟩
    cases i with
    | zero =>
      simp at hi; subst hi
      exact (memberAt_bounds h.2 (i := j) (by simpa using hj) _).1
    | succ i => exact ih h.2 (by simpa using hi) (by simpa using hj) (by omega) _

theorem endOf_le_size {fs : List CType} (h : AllValid fs) : endOf fs 0 ≤ (CType.struct fs).size := by
  have := le_alignUp (max 1 (endOf fs 0)) (alignAll_small fs h).pos
  simp only [CType.size]
  omega

/-! ## Lists of bytes -/

theorem padTo_length {n : Nat} {l : List Cell} (h : l.length ≤ n) : (padTo n l).length = n := by
  simp [padTo]; omega

theorem toBytes_length (k n : Nat) : (toBytes k n).length = k := by
  induction k generalizing n with
  | zero => rfl
  | succ k ih => simp [toBytes, ih]

theorem order_length (big : Bool) (l : List (BitVec 8)) : (order big l).length = l.length := by
  cases big <;> simp [order]

theorem order_order (big : Bool) (l : List (BitVec 8)) : order big (order big l) = l := by
  cases big <;> simp [order]

theorem ofBytes_toBytes (k n : Nat) : ofBytes (toBytes k n) = n % 256 ^ k := by
  induction k generalizing n with
  | zero => simp [toBytes, ofBytes, Nat.mod_one]
  | succ k ih =>
    simp only [toBytes, ofBytes, ih, BitVec.toNat_ofNat]
    rw [show (2 : Nat) ^ 8 = 256 from rfl, Nat.pow_succ' (n := k) (m := 256), Nat.mod_mul (x := n)]

theorem ofBytes_lt (l : List (BitVec 8)) : ofBytes l < 256 ^ l.length := by
  induction l with
  | nil => simp [ofBytes]
  | cons b l ih =>
    simp only [ofBytes, List.length_cons, Nat.pow_succ']
    have := b.isLt
    omega

theorem toBytes_ofBytes (l : List (BitVec 8)) : toBytes l.length (ofBytes l) = l := by
  induction l with
  | nil => rfl
  | cons b l ih =>
    have hb := b.isLt
    simp only [ofBytes, List.length_cons, toBytes]
    rw [show (b.toNat + 256 * ofBytes l) / 256 = ofBytes l by omega, ih]
    congr 1
    apply BitVec.eq_of_toNat_eq
    simp only [BitVec.toNat_ofNat]
    omega

theorem pow_bytes (k : Nat) : (256 : Nat) ^ k = 2 ^ (8 * k) := by rw [Nat.pow_mul]

theorem allSome_map (l : List (BitVec 8)) : allSome (l.map some) = some l := by
  induction l with
  | nil => rfl
  | cons b l ih => simp [allSome, ih]

theorem allSome_eq {l : List Cell} {bs : List (BitVec 8)} (h : allSome l = some bs) : l = bs.map some := by
  induction l generalizing bs with
  | nil => simp [allSome] at h; subst h; rfl
  | cons c l ih =>
    cases c with
    | none => simp [allSome] at h
    | some b =>
      simp only [allSome, Option.map_eq_some_iff] at h
      obtain ⟨cs, h1, rfl⟩ := h
      rw [ih h1]; rfl

theorem allSome_none {l : List Cell} {j : Nat} (h : l[j]? = some none) : allSome l = none := by
  induction l generalizing j with
  | nil => simp at h
  | cons c l ih =>
    cases c with
    | none => rfl
    | some b =>
      cases j with
      | zero => simp at h
      | succ j => simp [allSome, ih (j := j) (by simpa using h)]

theorem Agrees.refl (l : List Cell) : Agrees l l := fun _ _ h => h

theorem Agrees.append_left {xs ys l : List Cell} (h : Agrees (xs ++ ys) l) : Agrees xs l := by
  intro j b hj
  have hlt : j < xs.length := by
    rw [List.getElem?_eq_some_iff] at hj
    exact hj.1
  exact h j b (by rw [List.getElem?_append_left hlt]; exact hj)

theorem Agrees.append_right {xs ys l : List Cell} (h : Agrees (xs ++ ys) l) : Agrees ys (l.drop xs.length) := by
  intro j b hj
  rw [List.getElem?_drop]
  exact h _ b (by rw [List.getElem?_append_right (by omega), Nat.add_sub_cancel_left]; exact hj)

theorem Agrees.append {xs ys l : List Cell} (h1 : Agrees xs l) (h2 : Agrees ys (l.drop xs.length)) : Agrees (xs ++ ys) l := by
  intro j b hj
  by_cases hlt : j < xs.length
  · exact h1 j b (by rwa [List.getElem?_append_left hlt] at hj)
  · rw [List.getElem?_append_right (by omega)] at hj
    have := h2 _ b hj
    rw [List.getElem?_drop] at this
    rwa [show xs.length + (j - xs.length) = j by omega] at this

theorem Agrees.take_eq {bs : List (BitVec 8)} {l : List Cell} (h : Agrees (bs.map some) l) : l.take bs.length = bs.map some := by
  apply List.ext_getElem?
  intro j
  by_cases hj : j < bs.length
  · have := h j bs[j] (by simp [hj])
    rw [List.getElem?_take_of_lt hj, this]
    simp [hj]
  · rw [List.getElem?_take_eq_none (by omega), List.getElem?_eq_none (by simp; omega)]

/-! ## Representations -/

mutual
theorem enc_length (big : Bool) : ∀ (t : CType) (v : Val), t.Valid → HasType t v → (enc big t v).length = t.size
  | .int true k, .num v, _, _ => by simp [enc, CType.size, order_length, toBytes_length]
  | .int false k, .num v, _, _ => by simp [enc, CType.size, order_length, toBytes_length]
  | .flt wide, .flt s e f, _, _ => by simp [enc, CType.size, order_length, toBytes_length]
  | .bool, .num v, _, _ => by simp [enc, CType.size]
  | .struct fs, .agg vs, h, ht => by
    simp only [CType.Valid] at h
    simp only [HasType] at ht
    have h1 := encAll_length big fs vs [] h ht
    simp only [enc]
    apply padTo_length
    rw [h1]
    exact endOf_le_size h
  | .int true k, .agg vs, _, ht => by simp [HasType] at ht
  | .int false k, .agg vs, _, ht => by simp [HasType] at ht
  | .bool, .agg vs, _, ht => by simp [HasType] at ht
  | .struct fs, .num v, _, ht => by simp [HasType] at ht
  | .struct fs, .flt .., _, ht => by simp [HasType] at ht
  | .bool, .flt .., _, ht => by simp [HasType] at ht
  | .int true k, .flt .., _, ht => by simp [HasType] at ht
  | .int false k, .flt .., _, ht => by simp [HasType] at ht
  | .flt _, .num v, _, ht => by simp [HasType] at ht
  | .flt _, .agg vs, _, ht => by simp [HasType] at ht
theorem encAll_length (big : Bool) : ∀ (fs : List CType) (vs : List Val) (acc : List Cell), AllValid fs → HaveTypes fs vs → (encAll big fs vs acc).length = endOf fs acc.length
  | [], [], acc, _, _ => by simp [encAll, endOf]
  | f :: fs, v :: vs, acc, h, ht => by
    simp only [AllValid] at h
    simp only [HaveTypes] at ht
    have h1 := enc_length big f v h.1 ht.1
    have h2 := padTo_length (le_alignUp acc.length (align_pos h.1))
    simp only [encAll, endOf]
    rw [encAll_length big fs vs _ h.2 ht.2, List.length_append, h1, h2]
  | [], _ :: _, _, _, ht => by simp [HaveTypes] at ht
  | _ :: _, [], _, _, ht => by simp [HaveTypes] at ht
end

theorem encAll_prefix (big : Bool) (fs : List CType) (vs : List Val) (acc : List Cell) : ∃ post, encAll big fs vs acc = acc ++ post := by
  induction fs generalizing vs acc with
  | nil => exact ⟨[], by simp [encAll]⟩
  | cons f fs ih =>
    cases vs with
    | nil => exact ⟨[], by simp [encAll]⟩
    | cons v vs =>
      obtain ⟨post, h⟩ := ih vs (padTo (alignUp acc.length f.align) acc ++ enc big f v)
      exact ⟨List.replicate (alignUp acc.length f.align - acc.length) none ++ enc big f v ++ post, by simp only [encAll]; rw [h]; simp [padTo]⟩

/-- Member `i` is where `memberAt` says. -/
theorem encAll_member (big : Bool) {fs : List CType} {vs : List Val} (acc : List Cell) (h : AllValid fs) (ht : HaveTypes fs vs) {i : Nat} {f : CType} {v : Val}
    (hf : fs[i]? = some f) (hv : vs[i]? = some v) :
    ∃ pre post, encAll big fs vs acc = pre ++ enc big f v ++ post ∧ pre.length = memberAt fs acc.length i := by
  induction fs generalizing vs acc i with
  | nil => simp at hf
  | cons g fs ih =>
    cases vs with
    | nil => simp at hv
    | cons u vs =>
      simp only [AllValid] at h
      simp only [HaveTypes] at ht
      have h2 := padTo_length (le_alignUp acc.length (align_pos h.1))
      cases i with
      | zero =>
        simp at hf hv; subst hf; subst hv
        obtain ⟨post, hp⟩ := encAll_prefix big fs vs (padTo (alignUp acc.length g.align) acc ++ enc big g u)
        exact ⟨_, post, by simp only [encAll]; exact hp, h2⟩
      | succ i =>
        obtain ⟨pre, post, h3, h4⟩ := ih (padTo (alignUp acc.length g.align) acc ++ enc big g u) h.2 ht.2 (by simpa using hf) (by simpa using hv)
        refine ⟨pre, post, by simp only [encAll]; exact h3, ?_⟩
        rw [h4]
        simp [memberAt, h2, enc_length big g u h.1 ht.1]

theorem two_pow_pos (n : Nat) : (0 : Int) < 2 ^ n := Int.pow_pos (by decide)

theorem wrap_wrap_bytes (k : Nat) (v : Int) : ((v % 2 ^ (8 * k)).toNat : Int) = v % 2 ^ (8 * k) :=
  Int.toNat_of_nonneg (Int.emod_nonneg _ (by have := two_pow_pos (8 * k); omega))

theorem ofBytes_enc (k : Nat) (v : Int) : (ofBytes (toBytes k (v % 2 ^ (8 * k)).toNat) : Int) = v % 2 ^ (8 * k) := by
  rw [ofBytes_toBytes, pow_bytes, Nat.mod_eq_of_lt, wrap_wrap_bytes]
  have h1 := Int.emod_lt_of_pos v (two_pow_pos (8 * k))
  rw [← wrap_wrap_bytes] at h1
  exact_mod_cast h1

theorem bmod_emod (v : Int) (n : Nat) : Int.bmod (v % (n : Int)) n = Int.bmod v n := by simp

theorem bmod_self {k : Nat} (hk : 0 < k) {v : Int} (h : -2 ^ (8 * k - 1) ≤ v ∧ v < 2 ^ (8 * k - 1)) : Int.bmod v (2 ^ (8 * k)) = v := by
  obtain ⟨n, hn⟩ : ∃ n, 8 * k = n + 1 := ⟨8 * k - 1, by omega⟩
  rw [hn] at h ⊢
  simp only [Nat.add_sub_cancel] at h
  have hp : ((2 ^ (n + 1) : Nat) : Int) = 2 * 2 ^ n := by push_cast; rw [Int.pow_succ]; omega
  apply Int.bmod_eq_of_le
  · rw [hp]; have := two_pow_pos n; omega
  · rw [hp]; have := two_pow_pos n; omega

theorem dec_int (big s : Bool) (k : Nat) (v : Int) {l : List Cell} (h : Agrees ((order big (toBytes k (v % 2 ^ (8 * k)).toNat)).map some) l) :
    dec big (.int s k) l = some (.num (wrap s k v)) := by
  have ht := h.take_eq
  rw [order_length, toBytes_length] at ht
  simp only [dec, ht, allSome_map, order_order]
  have := ofBytes_enc k v
  cases s with
  | false => simp only [Bool.false_eq_true, if_false, wrap]; rw [this]
  | true =>
    simp only [if_true, wrap]
    rw [this]
    congr 2
    have := bmod_emod v (2 ^ (8 * k))
    push_cast at this
    exact this

theorem flt_width (wide : Bool) : 8 * fltSize wide = 1 + expBits wide + fracBits wide := by cases wide <;> rfl

theorem flt_bits_lt {E M s e f : Nat} (hs : s ≤ 1) (he : e < 2 ^ E) (hf : f < 2 ^ M) : (s * 2 ^ E + e) * 2 ^ M + f < 2 ^ (1 + E + M) := by
  have h1 : s * 2 ^ E + e + 1 ≤ 2 ^ (1 + E) := by
    rw [Nat.pow_add]
    have : s * 2 ^ E ≤ 1 * 2 ^ E := Nat.mul_le_mul_right _ hs
    omega
  calc (s * 2 ^ E + e) * 2 ^ M + f < (s * 2 ^ E + e) * 2 ^ M + 2 ^ M := by omega
    _ = (s * 2 ^ E + e + 1) * 2 ^ M := by rw [Nat.add_mul _ 1, Nat.one_mul]
    _ ≤ 2 ^ (1 + E) * 2 ^ M := Nat.mul_le_mul_right _ h1
    _ = 2 ^ (1 + E + M) := (Nat.pow_add ..).symm

theorem fltBits_lt {wide s : Bool} {e f : Nat} (he : e < 2 ^ expBits wide) (hf : f < 2 ^ fracBits wide) : fltBits wide s e f < 2 ^ (8 * fltSize wide) := by
  rw [flt_width]
  exact flt_bits_lt (Bool.toNat_le s) he hf

theorem fltOf_fltBits {wide s : Bool} {e f : Nat} (he : e < 2 ^ expBits wide) (hf : f < 2 ^ fracBits wide) : fltOf wide (fltBits wide s e f) = .flt s e f := by
  have h1 : fltBits wide s e f / 2 ^ fracBits wide = s.toNat * 2 ^ expBits wide + e := by
    rw [fltBits, Nat.add_comm, Nat.add_mul_div_right _ _ (Nat.pow_pos (by decide)), Nat.div_eq_of_lt hf, Nat.zero_add]
  have h2 : fltBits wide s e f % 2 ^ fracBits wide = f := by
    rw [fltBits, Nat.add_comm, Nat.add_mul_mod_self_right, Nat.mod_eq_of_lt hf]
  have h3 : (s.toNat * 2 ^ expBits wide + e) / 2 ^ expBits wide = s.toNat := by
    rw [Nat.add_comm, Nat.add_mul_div_right _ _ (Nat.pow_pos (by decide)), Nat.div_eq_of_lt he, Nat.zero_add]
  have h4 : (s.toNat * 2 ^ expBits wide + e) % 2 ^ expBits wide = e := by
    rw [Nat.add_comm, Nat.add_mul_mod_self_right, Nat.mod_eq_of_lt he]
  rw [fltOf, h1, h2, h3, h4]
  cases s <;> rfl

theorem fltBits_fltOf {wide : Bool} {n : Nat} (hn : n < 2 ^ (8 * fltSize wide)) :
    ∃ s e f, fltOf wide n = .flt s e f ∧ e < 2 ^ expBits wide ∧ f < 2 ^ fracBits wide ∧ fltBits wide s e f = n := by
  refine ⟨_, _, _, rfl, Nat.mod_lt _ (Nat.pow_pos (by decide)), Nat.mod_lt _ (Nat.pow_pos (by decide)), ?_⟩
  have h1 : n / 2 ^ fracBits wide / 2 ^ expBits wide < 2 := by
    rw [Nat.div_div_eq_div_mul, ← Nat.pow_add, Nat.div_lt_iff_lt_mul (Nat.pow_pos (by decide))]
    have : 2 * 2 ^ (fracBits wide + expBits wide) = 2 ^ (8 * fltSize wide) := by
      rw [flt_width, show 1 + expBits wide + fracBits wide = (fracBits wide + expBits wide) + 1 by omega, Nat.pow_succ, Nat.mul_comm]
    omega
  have h2 : ((n / 2 ^ fracBits wide / 2 ^ expBits wide) == 1).toNat = n / 2 ^ fracBits wide / 2 ^ expBits wide := by
    generalize n / 2 ^ fracBits wide / 2 ^ expBits wide = q at h1
    obtain rfl | rfl : q = 0 ∨ q = 1 := by omega
    · rfl
    · rfl
  rw [fltBits, h2, Nat.mul_comm (n / 2 ^ fracBits wide / 2 ^ expBits wide), Nat.div_add_mod, Nat.mul_comm, Nat.div_add_mod]

theorem dec_flt (big : Bool) {wide : Bool} {n : Nat} (hn : n < 2 ^ (8 * fltSize wide)) {l : List Cell}
    (h : Agrees ((order big (toBytes (fltSize wide) n)).map some) l) : dec big (.flt wide) l = some (fltOf wide n) := by
  have ht := h.take_eq
  rw [order_length, toBytes_length] at ht
  simp only [dec, ht, allSome_map, order_order]
  rw [ofBytes_toBytes, pow_bytes, Nat.mod_eq_of_lt hn]

mutual
theorem dec_enc (big : Bool) : ∀ (t : CType) (v : Val) (l : List Cell), t.Valid → HasType t v → Agrees (enc big t v) l → dec big t l = some v
  | .int s k, .num v, l, hv, ht, h => by
    simp only [enc] at h
    rw [dec_int big s k v h]
    simp only [CType.Valid] at hv
    cases s with
    | false =>
      simp only [HasType] at ht
      simp only [wrap, Bool.false_eq_true, if_false]
      rw [Int.emod_eq_of_lt ht.1 ht.2]
    | true =>
      simp only [HasType] at ht
      simp only [wrap, if_true]
      rw [bmod_self (by omega) ht]
  | .flt wide, .flt s e f, l, _, ht, h => by
    simp only [HasType] at ht
    simp only [enc] at h
    rw [dec_flt big (fltBits_lt ht.1 ht.2) h, fltOf_fltBits ht.1 ht.2]
  | .bool, .num v, l, _, ht, h => by
    have h0 := h 0 (BitVec.ofInt 8 v) (by simp [enc])
    simp only [HasType] at ht
    simp only [dec, List.head?_eq_getElem?, h0]
    rcases ht with rfl | rfl <;> simp
  | .struct fs, .agg vs, l, hv, ht, h => by
    simp only [CType.Valid] at hv
    simp only [HasType] at ht
    simp only [enc, padTo] at h
    have := decAll_encAll big fs vs [] l hv ht h.append_left
    simp only [List.length_nil] at this
    simp [dec, this]
  | .int true k, .agg vs, _, _, ht, _ => by simp [HasType] at ht
  | .int false k, .agg vs, _, _, ht, _ => by simp [HasType] at ht
  | .bool, .agg vs, _, _, ht, _ => by simp [HasType] at ht
  | .struct fs, .num v, _, _, ht, _ => by simp [HasType] at ht
  | .struct fs, .flt .., _, _, ht, _ => by simp [HasType] at ht
  | .bool, .flt .., _, _, ht, _ => by simp [HasType] at ht
  | .int true k, .flt .., _, _, ht, _ => by simp [HasType] at ht
  | .int false k, .flt .., _, _, ht, _ => by simp [HasType] at ht
  | .flt _, .num v, _, _, ht, _ => by simp [HasType] at ht
  | .flt _, .agg vs, _, _, ht, _ => by simp [HasType] at ht
theorem decAll_encAll (big : Bool) : ∀ (fs : List CType) (vs : List Val) (acc l : List Cell), AllValid fs → HaveTypes fs vs → Agrees (encAll big fs vs acc) l →
    decAll big fs l acc.length = some vs
  | [], [], _, _, _, _, _ => by simp [decAll]
  | f :: fs, v :: vs, acc, l, hv, ht, h => by
    simp only [AllValid] at hv
    simp only [HaveTypes] at ht
    simp only [encAll] at h
    have h2 := padTo_length (le_alignUp acc.length (align_pos hv.1))
    have h3 := decAll_encAll big fs vs _ l hv.2 ht.2 h
    obtain ⟨post, hp⟩ := encAll_prefix big fs vs (padTo (alignUp acc.length f.align) acc ++ enc big f v)
    rw [hp] at h
    have h4 := h.append_left.append_right
    rw [h2] at h4
    have h5 := dec_enc big f v _ hv.1 ht.1 h4
    rw [List.length_append, h2, enc_length big f v hv.1 ht.1] at h3
    simp [decAll, h5, h3]
  | [], _ :: _, _, _, _, ht, _ => by simp [HaveTypes] at ht
  | _ :: _, [], _, _, _, ht, _ => by simp [HaveTypes] at ht
end

/-! ## From bytes to values and back -/

theorem sizes_le_endOf {fs : List CType} (h : AllValid fs) (pos : Nat) : pos + sizes fs ≤ endOf fs pos := by
  induction fs generalizing pos with
  | nil => simp [endOf, sizes]
  | cons g fs ih =>
    simp only [AllValid] at h
    have := ih h.2 (alignUp pos g.align + g.size)
    have := le_alignUp pos (align_pos h.1)
    simp only [sizes, endOf]
    omega

theorem ofBytes_take_lt (big : Bool) {l : List Cell} {k : Nat} {bs : List (BitVec 8)} (hbs : allSome (l.take k) = some bs) : ofBytes (order big bs) < 2 ^ (8 * k) := by
  have h1 := ofBytes_lt (order big bs)
  have h2 : (order big bs).length ≤ k := by
    rw [order_length]
    have := congrArg List.length (allSome_eq hbs)
    simp at this
    omega
  have h3 : 256 ^ (order big bs).length ≤ 256 ^ k := Nat.pow_le_pow_right (by decide) h2
  rw [pow_bytes k] at h3
  omega

theorem bool_byte {b : BitVec 8} (h : b.toNat ≤ 1) : BitVec.ofInt 8 (b.toNat : Int) = b := by
  apply BitVec.eq_of_toNat_eq
  simp only [BitVec.ofInt_natCast, BitVec.toNat_ofNat]
  omega

theorem wrap_hasType {s : Bool} {k : Nat} (hk : 0 < k) (v : Int) : HasType (.int s k) (.num (wrap s k v)) := by
  obtain ⟨n, hn⟩ : ∃ n, 8 * k = n + 1 := ⟨8 * k - 1, by omega⟩
  have hp : ((2 ^ (n + 1) : Nat) : Int) = 2 * 2 ^ n := by push_cast; rw [Int.pow_succ]; omega
  have h2 := two_pow_pos n
  cases s with
  | true =>
    simp only [HasType, wrap, if_true, hn, Nat.add_sub_cancel]
    have a1 := Int.le_bmod (x := v) (m := 2 ^ (n + 1)) (Nat.pow_pos (by decide))
    have a2 := Int.bmod_lt (x := v) (m := 2 ^ (n + 1)) (Nat.pow_pos (by decide))
    rw [hp] at a1 a2
    omega
  | false =>
    simp only [HasType, wrap, Bool.false_eq_true, if_false]
    have h3 := two_pow_pos (8 * k)
    exact ⟨Int.emod_nonneg _ (by omega), Int.emod_lt_of_pos _ h3⟩

theorem wrap_bytes {s : Bool} {k : Nat} {n : Nat} (hn : n < 2 ^ (8 * k)) : (wrap s k n % 2 ^ (8 * k)).toNat = n := by
  have hn' : (n : Int) < 2 ^ (8 * k) := by exact_mod_cast hn
  have key : (n : Int) % 2 ^ (8 * k) = n := Int.emod_eq_of_lt (by omega) hn'
  cases s with
  | true =>
    simp only [wrap, if_true]
    have := Int.bmod_emod (x := (n : Int)) (m := 2 ^ (8 * k))
    push_cast at this
    rw [this, key]; rfl
  | false =>
    simp only [wrap, Bool.false_eq_true, if_false, key]; rfl

mutual
theorem dec_hasType (big : Bool) : ∀ (t : CType) (l : List Cell) (v : Val), t.Valid → dec big t l = some v → HasType t v
  | .int s k, l, v, hv, h => by
    simp only [CType.Valid] at hv
    simp only [dec] at h
    split at h
    · cases h
    · next bs hbs =>
      cases h
      have hl : (ofBytes (order big bs) : Int) % 2 ^ (8 * k) = ofBytes (order big bs) := by
        apply Int.emod_eq_of_lt (by omega)
        have h1 := ofBytes_lt (order big bs)
        have h2 : (order big bs).length ≤ k := by
          rw [order_length]
          have := congrArg List.length (allSome_eq hbs)
          simp at this
          omega
        have h3 : 256 ^ (order big bs).length ≤ 256 ^ k := Nat.pow_le_pow_right (by decide) h2
        rw [pow_bytes k] at h3
        have h4 : ofBytes (order big bs) < 2 ^ (8 * k) := by omega
        exact_mod_cast h4
      have := wrap_hasType (s := s) (k := k) (by omega) (ofBytes (order big bs) : Int)
      cases s with
      | true => exact this
      | false => simpa [wrap, hl] using this
  | .flt wide, l, v, _, h => by
    simp only [dec] at h
    split at h
    · cases h
    · next bs hbs =>
      cases h
      obtain ⟨s, e, f, h1, h2, h3, _⟩ := fltBits_fltOf (wide := wide) (ofBytes_take_lt big hbs)
      rw [h1]
      exact ⟨h2, h3⟩
  | .bool, l, v, _, h => by
    simp only [dec] at h
    split at h
    · split at h
      · cases h
        simp only [HasType]
        omega
      · cases h
    · cases h
  | .struct fs, l, v, hv, h => by
    simp only [CType.Valid] at hv
    simp only [dec, Option.map_eq_some_iff] at h
    obtain ⟨vs, h1, rfl⟩ := h
    simp only [HasType]
    exact decAll_haveTypes big fs l 0 vs hv h1
theorem decAll_haveTypes (big : Bool) : ∀ (fs : List CType) (l : List Cell) (pos : Nat) (vs : List Val), AllValid fs → decAll big fs l pos = some vs → HaveTypes fs vs
  | [], l, pos, vs, _, h => by simp only [decAll, Option.some.injEq] at h; subst h; simp [HaveTypes]
  | f :: fs, l, pos, vs, hv, h => by
    simp only [AllValid] at hv
    simp only [decAll] at h
    split at h
    · cases h
    · next v hd =>
      simp only [Option.map_eq_some_iff] at h
      obtain ⟨us, h1, rfl⟩ := h
      simp only [HaveTypes]
      exact ⟨dec_hasType big f _ v hv.1 hd, decAll_haveTypes big fs l _ us hv.2 h1⟩
end

mutual
/-- A type without padding: the bytes are those of the value. -/
theorem enc_dec (big : Bool) : ∀ (t : CType) (l : List Cell) (v : Val), t.Valid → t.Packed → t.size ≤ l.length → dec big t l = some v → enc big t v = l.take t.size
  | .int s k, l, v, hv, _, hl, h => by
    simp only [dec] at h
    split at h
    · cases h
    · next bs hbs =>
      simp only [CType.size] at hl ⊢
      have h1 := allSome_eq hbs
      have h2 : bs.length = k := by
        have := congrArg List.length h1
        simp at this
        omega
      have h3 : ofBytes (order big bs) < 2 ^ (8 * k) := by
        rw [← pow_bytes, ← h2, ← order_length big bs]
        exact ofBytes_lt _
      have h4 : v = .num (wrap s k (ofBytes (order big bs) : Int)) := by
        cases h
        cases s with
        | true => rfl
        | false =>
          have : (ofBytes (order big bs) : Int) % 2 ^ (8 * k) = ofBytes (order big bs) := Int.emod_eq_of_lt (by omega) (by exact_mod_cast h3)
          simp [wrap, this]
      subst h4
      simp only [enc]
      rw [wrap_bytes h3, h1]
      congr 1
      have := toBytes_ofBytes (order big bs)
      rw [order_length, h2] at this
      rw [this, order_order]
  | .flt wide, l, v, hv, _, hl, h => by
    simp only [dec] at h
    split at h
    · cases h
    · next bs hbs =>
      simp only [CType.size] at hl ⊢
      have h1 := allSome_eq hbs
      have h2 : bs.length = fltSize wide := by
        have := congrArg List.length h1
        simp at this
        omega
      obtain ⟨s, e, f, h3, _, _, h4⟩ := fltBits_fltOf (wide := wide) (ofBytes_take_lt big hbs)
      rw [h3] at h
      cases h
      simp only [enc]
      rw [h4, h1]
      congr 1
      have := toBytes_ofBytes (order big bs)
      rw [order_length, h2] at this
      rw [this, order_order]
  | .bool, l, v, _, _, hl, h => by
    simp only [dec] at h
    split at h
    · next b hb =>
      split at h
      · next hb1 =>
        cases h
        simp only [enc, bool_byte hb1, CType.size]
        cases l with
        | nil => cases hb
        | cons c l => simp at hb; subst hb; simp
      · cases h
    · cases h
  | .struct fs, l, v, hv, hp, hl, h => by
    simp only [CType.Valid] at hv
    simp only [CType.Packed] at hp
    simp only [dec, Option.map_eq_some_iff] at h
    obtain ⟨vs, h1, rfl⟩ := h
    have h2 := sizes_le_endOf hv 0
    have h3 := endOf_le_size hv
    have h4 := encAll_decAll big fs l 0 vs hv hp.1 (by omega) (by omega) h1
    have h5 : endOf fs 0 = (CType.struct fs).size := by omega
    simp only [List.take_zero] at h4
    simp only [enc]
    rw [h4, h5, padTo, List.length_take, Nat.min_eq_left hl, Nat.sub_self]
    simp
theorem encAll_decAll (big : Bool) : ∀ (fs : List CType) (l : List Cell) (pos : Nat) (vs : List Val), AllValid fs → AllPacked fs → endOf fs pos = pos + sizes fs →
    endOf fs pos ≤ l.length → decAll big fs l pos = some vs → encAll big fs vs (l.take pos) = l.take (endOf fs pos)
  | [], l, pos, vs, _, _, _, _, h => by simp only [decAll, Option.some.injEq] at h; subst h; simp [encAll, endOf]
  | f :: fs, l, pos, vs, hv, hp, he, hl, h => by
    simp only [AllValid] at hv
    simp only [AllPacked] at hp
    simp only [endOf, sizes] at he hl
    have hs := sizes_le_endOf hv.2 (alignUp pos f.align + f.size)
    have ha := le_alignUp pos (align_pos hv.1)
    have hpos : alignUp pos f.align = pos := by omega
    rw [hpos] at he hl hs
    simp only [decAll, hpos] at h
    split at h
    · cases h
    · next v hd =>
      simp only [Option.map_eq_some_iff] at h
      obtain ⟨us, h1, rfl⟩ := h
      have h2 := enc_dec big f _ v hv.1 hp.1 (by rw [List.length_drop]; omega) hd
      have h3 := encAll_decAll big fs l (pos + f.size) us hv.2 hp.2 (by omega) hl h1
      have h4 : (l.take pos).length = pos := by rw [List.length_take]; omega
      simp only [encAll, endOf, h4, hpos]
      rw [padTo, h4, Nat.sub_self, List.replicate_zero, List.append_nil, h2, ← h3]
      congr 1
      rw [List.take_add]
end

end Verif.Bytes
