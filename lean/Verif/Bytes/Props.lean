import Verif.Bytes.Lemmas

/-!
# C112: `BitCast`; C113: `AccessByOffset` and `NazaraOffsetOf`
-/

namespace Verif.Bytes
open Verif.Cpp

/-! ## C112 -/

theorem load_dec {big : Bool} {t : CType} {l : List Cell} {v : Val} (h : dec big t l = some v) : load big t l = .ok v := by simp [load, h]

theorem memcpy_all {dst src : List Cell} {n : Nat} (h1 : dst.length = n) (h2 : src.length = n) : memcpy dst src n = .ok src := by
  obtain ⟨d, e, hd⟩ := forUp_ok (lo := 0) (n := n) (s := dst) (f := fun i d => (do let b ← rd src i; wr d i b : M (List Cell)))
    (fun k d => d.length = n ∧ ∀ j < k, d[j]? = src[j]?) ⟨h1, by simp⟩ (by
      intro k d hk ⟨hl, hj⟩
      refine ⟨d.set k src[k], ?_, by simpa using hl, ?_⟩
      · rw [Nat.zero_add, rd_ok (by omega), ok_bind, wr_ok (by omega)]
      · intro j hjk
        rw [List.getElem?_set]
        by_cases hkj : k = j
        · subst hkj
          rw [if_pos rfl, if_pos (by omega)]
          simp
        · rw [if_neg hkj]
          exact hj j (by omega))
  have : d = src := by
    apply List.ext_getElem?
    intro j
    by_cases hj : j < n
    · exact hd.2 j hj
    · rw [List.getElem?_eq_none (by omega), List.getElem?_eq_none (by omega)]
  rw [this] at e
  exact e

/-- C112: with `std::bit_cast` and with `std::memcpy`, `BitCast` does the same: for all types of the same size and all values. -/
theorem C112_methods (big : Bool) {to' from' : CType} {v : Val} (hf : from'.Valid) (hv : HasType from' v) (hs : to'.size = from'.size) :
    bitCastMemcpy big to' from' v = bitCast big to' from' v := by
  rw [bitCastMemcpy, memcpy_all (by simp) (by rw [enc_length big from' v hf hv, hs])]
  rfl

/-- C112: a cast to the same type gives the same value, whatever the order of the bytes. -/
theorem C112_same_type (big : Bool) {t : CType} {v : Val} (ht : t.Valid) (hv : HasType t v) : bitCast big t t v = .ok v :=
  load_dec (dec_enc big t v _ ht hv (Agrees.refl _))

/-- C112: between integer types of the same size: the number of the target type congruent to the value, as by `static_cast`, whatever the order of the bytes. -/
theorem C112_integers (big s s' : Bool) (k : Nat) (v : Int) : bitCast big (.int s' k) (.int s k) (.num v) = .ok (.num (wrap s' k v)) :=
  load_dec (dec_int big s' k v (by simp only [enc]; exact Agrees.refl _))

/-- C112: what `BitCast` gives, cast back, is the original value.  Partial: if the intermediate type has no padding (then any defined cast to it can be undone). -/
theorem C112_round_trip_partial (big : Bool) {to' from' : CType} {v u : Val} (ht : to'.Valid) (hf : from'.Valid) (hv : HasType from' v) (hs : to'.size = from'.size)
    (hp : to'.Packed) (h : bitCast big to' from' v = .ok u) : HasType to' u ∧ bitCast big from' to' u = .ok v := by
  have hd : dec big to' (enc big from' v) = some u := by
    unfold bitCast load at h
    split at h
    · next x hx => cases h; exact hx
    · cases h
  have hl := enc_length big from' v hf hv
  refine ⟨dec_hasType big to' _ u ht hd, load_dec (dec_enc big from' v _ hf hv ?_)⟩
  rw [enc_dec big to' _ u ht hp (by omega) hd, hs, ← hl, List.take_length]
  exact Agrees.refl _

/-- The type `struct { Int8 a; Int32 b; }`: three bytes of padding. -/
def padded : CType := .struct [.int true 1, .int true 4]

/-- C112, violated: through a type with padding the value is lost, for every value: the padding has no value, and reading it is undefined. -/
theorem C112_padding_violated (v : Int) :
    padded.size = (CType.int false 8).size ∧ ∃ u, HasType padded u ∧ bitCast false padded (.int false 8) (.num v) = .ok u ∧
      bitCast false (.int false 8) padded u = .error .ub := by
  refine ⟨by decide, ?_⟩
  have hd : ∃ a b, dec false padded (enc false (.int false 8) (.num v)) = some (.agg [.num a, .num b]) := by
    simp only [padded, enc, order, toBytes, dec, decAll, Bool.false_eq_true, if_false, List.map, alignUp, CType.align, CType.size, List.drop, List.take, allSome,
      Option.map]
    exact ⟨_, _, rfl⟩
  obtain ⟨a, b, hd⟩ := hd
  have ht := dec_hasType false padded _ _ (by simp [padded, CType.Valid, AllValid]) hd
  refine ⟨_, ht, load_dec hd, ?_⟩
  have hn : dec false (.int false 8) (enc false padded (.agg [.num a, .num b])) = none := by
    simp [padded, enc, encAll, order, toBytes, dec, alignUp, CType.align, CType.size, alignAll, endOf, padTo, List.take, List.replicate, allSome]
  simp [bitCast, load, hn]

/-- C112, violated: not every byte is a `bool`: a cast of any number but 0 and 1 to `bool` is undefined. -/
theorem C112_bool_violated (big : Bool) {v : Int} (h : HasType (.int false 1) (.num v)) (h0 : v ≠ 0) (h1 : v ≠ 1) :
    bitCast big .bool (.int false 1) (.num v) = .error .ub := by
  simp only [HasType] at h
  obtain ⟨n, rfl⟩ : ∃ n : Nat, v = n := ⟨v.toNat, by omega⟩
  have hn : n < 256 := by omega
  have : ((n : Int) % 2 ^ (8 * 1)).toNat = n := by omega
  have hd : dec big .bool (enc big (.int false 1) (.num n)) = none := by
    simp only [enc, this, toBytes, dec]
    cases big <;> simp [order] <;> omega
  simp [bitCast, load, hd]

/-- An array of bytes. -/
def byteArray (k : Nat) : CType := .struct (List.replicate k (.int false 1))

theorem endOf_bytes (k pos : Nat) : endOf (List.replicate k (.int false 1)) pos = pos + k := by
  induction k generalizing pos with
  | zero => simp [endOf]
  | succ k ih => simp [List.replicate_succ, endOf, ih, alignUp, CType.align, CType.size]; omega

theorem alignAll_bytes (k : Nat) : alignAll (List.replicate k (.int false 1)) = 1 := by
  induction k with
  | zero => rfl
  | succ k ih => simp [List.replicate_succ, alignAll, ih, CType.align]

theorem byteArray_size {k : Nat} (h : 0 < k) : (byteArray k).size = k := by
  simp [byteArray, CType.size, endOf_bytes, alignAll_bytes, alignUp]; omega

theorem allValid_bytes (k : Nat) : AllValid (List.replicate k (.int false 1)) := by
  induction k with
  | zero => simp [AllValid]
  | succ k ih => simp [List.replicate_succ, AllValid, ih, CType.Valid]

theorem haveTypes_bytes (bs : List (BitVec 8)) : HaveTypes (List.replicate bs.length (.int false 1)) (bs.map (fun b => .num b.toNat)) := by
  induction bs with
  | nil => simp [HaveTypes]
  | cons b bs ih =>
    have := b.isLt
    simp only [List.length_cons, List.replicate_succ, List.map_cons, HaveTypes, HasType]
    exact ⟨by omega, ih⟩

theorem encAll_bytes (big : Bool) (bs : List (BitVec 8)) (acc : List Cell) :
    encAll big (List.replicate bs.length (.int false 1)) (bs.map (fun b => .num b.toNat)) acc = acc ++ bs.map some := by
  induction bs generalizing acc with
  | nil => simp [encAll]
  | cons b bs ih =>
    have hb := b.isLt
    have hm : ((b.toNat : Int) % 2 ^ (8 * 1)).toNat = b.toNat := by omega
    have he : enc big (.int false 1) (.num b.toNat) = [some b] := by
      simp only [enc, hm, toBytes]
      cases big <;> simp [order]
    simp only [List.length_cons, List.replicate_succ, List.map_cons, encAll, ih, he]
    simp [padTo, alignUp, CType.align]

theorem toBytes_eq (k n : Nat) : toBytes k n = (List.range k).map (fun i => BitVec.ofNat 8 (n / 256 ^ i)) := by
  induction k generalizing n with
  | zero => rfl
  | succ k ih =>
    rw [toBytes, ih, List.range_succ_eq_map, List.map_cons, List.map_map]
    simp [Function.comp_def, Nat.pow_succ', Nat.div_div_eq_div_mul]

/-- C112: a cast of an integer to an array of bytes gives its digits in base 256, the lowest first on machines with `NAZARA_LITTLE_ENDIAN`, the highest first with
`NAZARA_BIG_ENDIAN`. -/
theorem C112_bytes (big s : Bool) (k : Nat) (v : Int) :
    bitCast big (byteArray k) (.int s k) (.num v) =
      .ok (.agg ((if big then (List.range k).reverse else List.range k).map (fun i => .num ((v % 2 ^ (8 * k)).toNat / 256 ^ i % 256 : Nat)))) := by
  have hlen : (order big (toBytes k (v % 2 ^ (8 * k)).toNat)).length = k := by rw [order_length, toBytes_length]
  have h1 := encAll_bytes big (order big (toBytes k (v % 2 ^ (8 * k)).toNat)) []
  have h2 := haveTypes_bytes (order big (toBytes k (v % 2 ^ (8 * k)).toNat))
  have h3 := decAll_encAll big _ _ [] _ (allValid_bytes _) h2 (Agrees.refl _)
  rw [h1] at h3
  rw [hlen] at h3
  apply load_dec
  simp only [byteArray, dec, enc]
  simp only [List.nil_append, List.length_nil] at h3
  rw [h3]
  simp only [Option.map_some]
  congr 2
  rw [toBytes_eq]
  cases big
  · simp [order, Function.comp_def]
  · simp [order, Function.comp_def, ← List.map_reverse]

/-- `struct { UInt32 a; struct { Int8 b; bool c; } d; Int16 e; }`, and one of its values. -/
def sample : CType := .struct [.int false 4, .struct [.int true 1, .bool], .int true 2]
def sampleVal : Val := .agg [.num 0x01020304, .agg [.num (-2), .num 1], .num (-300)]

example : sample.Valid ∧ HasType sample sampleVal ∧ sample.Packed ∧ sample.size = (CType.int false 8).size := by
  refine ⟨?_, ?_, ?_, by decide⟩
  · simp [sample, CType.Valid, AllValid]
  · simp [sample, sampleVal, HasType, HaveTypes]
  · simp only [sample, CType.Packed, AllPacked, true_and, and_true]
    decide

example : bitCast false (byteArray 4) (.int true 4) (.num (-2)) = .ok (.agg [.num 254, .num 255, .num 255, .num 255]) := C112_bytes false true 4 (-2)

/-! ## C113 -/

theorem encAll_shift (big : Bool) (fs : List CType) (vs : List Val) {acc acc' : List Cell} (h : acc.length = acc'.length) :
    ∃ post, encAll big fs vs acc = acc ++ post ∧ encAll big fs vs acc' = acc' ++ post := by
  induction fs generalizing vs acc acc' with
  | nil => exact ⟨[], by simp [encAll], by simp [encAll]⟩
  | cons f fs ih =>
    cases vs with
    | nil => exact ⟨[], by simp [encAll], by simp [encAll]⟩
    | cons v vs =>
      obtain ⟨post, h1, h2⟩ := ih vs (acc := padTo (alignUp acc.length f.align) acc ++ enc big f v) (acc' := padTo (alignUp acc'.length f.align) acc' ++ enc big f v)
        (by simp [padTo, h])
      refine ⟨List.replicate (alignUp acc.length f.align - acc.length) none ++ enc big f v ++ post, ?_, ?_⟩
      · simp only [encAll]; rw [h1]; simp [padTo]
      · simp only [encAll]; rw [h2]; simp [padTo, h]

theorem encAll_set (big : Bool) {fs : List CType} {vs : List Val} (acc : List Cell) (h : AllValid fs) (ht : HaveTypes fs vs) {i : Nat} {f : CType} {v : Val}
    (hf : fs[i]? = some f) (hv : vs[i]? = some v) :
    ∃ pre post, encAll big fs vs acc = pre ++ enc big f v ++ post ∧ pre.length = memberAt fs acc.length i ∧
      ∀ v', HasType f v' → encAll big fs (vs.set i v') acc = pre ++ enc big f v' ++ post := by
  induction fs generalizing vs acc i with
  | nil => simp at hf
  | cons g fs ih =>
    cases vs with
    | nil => simp at hv
    | cons u vs =>
      simp only [AllValid] at h
      simp only [HaveTypes] at ht
      have h2 := padTo_length (le_alignUp acc.length (align_pos h.1))
      cases i with
      | zero =>
        simp at hf hv; subst hf; subst hv
        obtain ⟨post, hp⟩ := encAll_prefix big fs vs (padTo (alignUp acc.length g.align) acc ++ enc big g u)
        refine ⟨_, post, by simp only [encAll]; exact hp, h2, ?_⟩
        intro v' hv'
        obtain ⟨post', k1, k2⟩ := encAll_shift big fs vs (acc := padTo (alignUp acc.length g.align) acc ++ enc big g u)
          (acc' := padTo (alignUp acc.length g.align) acc ++ enc big g v') (by simp [enc_length big g u h.1 ht.1, enc_length big g v' h.1 hv'])
        have : post = post' := by rw [hp] at k1; exact List.append_cancel_left k1
        subst this
        simp only [List.set_cons_zero, encAll]
        exact k2
      | succ i =>
        obtain ⟨pre, post, h3, h4, h5⟩ := ih (padTo (alignUp acc.length g.align) acc ++ enc big g u) h.2 ht.2 (by simpa using hf) (by simpa using hv)
        refine ⟨pre, post, by simp only [encAll]; exact h3, ?_, ?_⟩
        · rw [h4]
          simp [memberAt, h2, enc_length big g u h.1 ht.1]
        · intro v' hv'
          simp only [List.set_cons_succ, encAll]
          exact h5 v' hv'

theorem haveTypes_get {fs : List CType} {vs : List Val} (h : HaveTypes fs vs) {i : Nat} {f : CType} (hf : fs[i]? = some f) : ∃ v, vs[i]? = some v ∧ HasType f v := by
  induction fs generalizing vs i with
  | nil => simp at hf
  | cons g fs ih =>
    cases vs with
    | nil => simp [HaveTypes] at h
    | cons u vs =>
      simp only [HaveTypes] at h
      cases i with
      | zero => simp at hf; subst hf; exact ⟨u, rfl, h.1⟩
      | succ i => exact ih h.2 (by simpa using hf)

theorem haveTypes_set {fs : List CType} {vs : List Val} (h : HaveTypes fs vs) {i : Nat} {f : CType} {v : Val} (hf : fs[i]? = some f) (hv : HasType f v) :
    HaveTypes fs (vs.set i v) := by
  induction fs generalizing vs i with
  | nil => simp at hf
  | cons g fs ih =>
    cases vs with
    | nil => simp [HaveTypes] at h
    | cons u vs =>
      simp only [HaveTypes] at h
      cases i with
      | zero => simp at hf; subst hf; simp only [List.set_cons_zero, HaveTypes]; exact ⟨hv, h.2⟩
      | succ i => simp only [List.set_cons_succ, HaveTypes]; exact ⟨h.1, ih h.2 (by simpa using hf)⟩

/-- C113: the members of a structure lie one after the other inside of it, each at a multiple of its alignment. -/
theorem C113_layout {fs : List CType} (h : (CType.struct fs).Valid) {i : Nat} {f : CType} (hi : fs[i]? = some f) :
    offsetOf fs i % f.align = 0 ∧ offsetOf fs i + f.size ≤ (CType.struct fs).size ∧
    ∀ j g, fs[j]? = some g → i < j → offsetOf fs i + f.size ≤ offsetOf fs j := by
  simp only [CType.Valid] at h
  simp only [offsetOf, Nat.zero_add]
  refine ⟨memberAt_mod hi 0, ?_, ?_⟩
  · have := (memberAt_bounds h hi 0).2
    have := endOf_le_size h
    omega
  · rintro j g hj hij
    exact memberAt_order h hi hj hij 0

/-- C113: the address that `AccessByOffset` computes from the address of a structure and the offset of a member is that of an object: this member.  So
offsets can be added along members of members. -/
theorem C113_member {big : Bool} {m : Mem} {p : Nat} {fs : List CType} {vs : List Val} (h : Holds big m p (.struct fs) (.agg vs)) (hv : (CType.struct fs).Valid)
    (ha : m.base + m.cells.length ≤ 2 ^ 64) {i : Nat} {f : CType} {v : Val} (hf : fs[i]? = some f) (hi : vs[i]? = some v) :
    Holds big m (accessByOffset p (offsetOf fs i)) f v := by
  obtain ⟨o, ho⟩ : ∃ o, o = offsetOf fs i := ⟨_, rfl⟩
  rw [← ho]
  obtain ⟨l1, l2, _⟩ := C113_layout hv hf
  rw [← ho] at l1 l2
  simp only [CType.Valid] at hv
  have hfv := allValid_get hv hf
  have h1 := h.typed
  simp only [HasType] at h1
  obtain ⟨u, hu, htu⟩ := haveTypes_get h1 hf
  rw [hi] at hu
  cases hu
  have hsz : 0 < f.size := by
    rw [← enc_length big f v hfv htu]
    cases f with
    | int s k =>
      simp only [CType.Valid] at hfv
      rw [enc_length big _ v (by simpa [CType.Valid] using hfv) htu]
      simp only [CType.size]; omega
    | flt wide => rw [enc_length big _ v hfv htu]; cases wide <;> simp [CType.size, fltSize]
    | bool => rw [enc_length big _ v hfv htu]; simp [CType.size]
    | struct gs =>
      rw [enc_length big _ v hfv htu]
      simp only [CType.Valid] at hfv
      have := le_alignUp (max 1 (endOf gs 0)) (alignAll_small gs hfv).pos
      simp only [CType.size]; omega
  have hup := h.upper
  have hlo := h.lower
  have hacc : accessByOffset p o = p + o := by
    unfold accessByOffset
    rw [Nat.mod_eq_of_lt]
    omega
  rw [hacc]
  have hal := h.aligned
  simp only [CType.align] at hal
  refine ⟨htu, ?_, by omega, by omega, ?_⟩
  · have := Nat.dvd_trans (align_dvd hv hf) (Nat.dvd_of_mod_eq_zero hal)
    exact Nat.mod_eq_zero_of_dvd (Nat.dvd_add this (Nat.dvd_of_mod_eq_zero l1))
  · obtain ⟨pre, post, e1, e2⟩ := encAll_member big [] hv h1 hf hi
    have hb := h.bytes
    simp only [enc, padTo] at hb
    have hb := hb.append_left
    rw [e1] at hb
    have hb := hb.append_left.append_right
    simp only [offsetOf, Nat.zero_add] at ho
    rw [e2, List.length_nil, ← ho, List.drop_drop] at hb
    rwa [show p + o - m.base = p - m.base + o by omega]

theorem read_holds {big : Bool} {m : Mem} {p : Nat} {t : CType} {v : Val} (ht : t.Valid) (h : Holds big m p t v) : read big t m p = .ok v := by
  simp only [read, h.aligned, h.lower, h.upper, decide_true, Bool.and_self, beq_self_eq_true, guardUB_true, ok_bind]
  exact load_dec (dec_enc big t v _ ht h.typed h.bytes)

/-- C113: reading through `AccessByOffset` gives the value of the member, whatever is in the padding. -/
theorem C113_read {big : Bool} {m : Mem} {p : Nat} {fs : List CType} {vs : List Val} (h : Holds big m p (.struct fs) (.agg vs)) (hv : (CType.struct fs).Valid)
    (ha : m.base + m.cells.length ≤ 2 ^ 64) {i : Nat} {f : CType} {v : Val} (hf : fs[i]? = some f) (hi : vs[i]? = some v) :
    read big f m (accessByOffset p (offsetOf fs i)) = .ok v := by
  have := C113_member h hv ha hf hi
  simp only [CType.Valid] at hv
  exact read_holds (allValid_get hv hf) this

theorem patch_length {l new : List Cell} {i : Nat} (h : i + new.length ≤ l.length) : (patch l i new).length = l.length := by
  simp [patch]; omega

theorem patch_get {l new : List Cell} {i : Nat} (h : i + new.length ≤ l.length) (j : Nat) :
    (patch l i new)[j]? = if i ≤ j ∧ j < i + new.length then new[j - i]? else l[j]? := by
  unfold patch
  have hl : (l.take i).length = i := by simp; omega
  by_cases h1 : j < i
  · rw [List.append_assoc, List.getElem?_append_left (by omega), if_neg (by omega), List.getElem?_take_of_lt h1]
  · by_cases h2 : j < i + new.length
    · rw [if_pos ⟨by omega, h2⟩, List.getElem?_append_left (by simp; omega), List.getElem?_append_right (by omega), hl]
    · rw [if_neg (by omega), List.getElem?_append_right (by simp; omega), List.getElem?_drop]
      congr 1
      simp; omega

theorem get_outside {a x y c : List Cell} (hxy : x.length = y.length) {j : Nat} (hj : ¬ (a.length ≤ j ∧ j < a.length + x.length)) : (a ++ x ++ c)[j]? = (a ++ y ++ c)[j]? := by
  by_cases h : j < a.length
  · rw [List.append_assoc, List.append_assoc, List.getElem?_append_left h, List.getElem?_append_left h]
  · rw [List.getElem?_append_right (by simp; omega), List.getElem?_append_right (by simp; omega)]
    simp [hxy]

/-- C113: writing through `AccessByOffset` changes the member, and no byte that does not belong to it. -/
theorem C113_write {big : Bool} {m : Mem} {p : Nat} {fs : List CType} {vs : List Val} (h : Holds big m p (.struct fs) (.agg vs)) (hv : (CType.struct fs).Valid)
    (ha : m.base + m.cells.length ≤ 2 ^ 64) {i : Nat} {f : CType} {v : Val} (hf : fs[i]? = some f) (hn : HasType f v) :
    ∃ m', write big f m (accessByOffset p (offsetOf fs i)) v = .ok m' ∧ Holds big m' p (.struct fs) (.agg (vs.set i v)) ∧
      ∀ a, ¬ (p + offsetOf fs i ≤ a ∧ a < p + offsetOf fs i + f.size) → m'.byte a = m.byte a := by
  obtain ⟨o, ho⟩ : ∃ o, o = offsetOf fs i := ⟨_, rfl⟩
  rw [← ho]
  have h1 := h.typed
  simp only [HasType] at h1
  obtain ⟨u, hu, htu⟩ := haveTypes_get h1 hf
  have hm := C113_member h hv ha hf hu
  rw [← ho] at hm
  obtain ⟨l1, l2, _⟩ := C113_layout hv hf
  rw [← ho] at l1 l2
  simp only [CType.Valid] at hv
  have hfv := allValid_get hv hf
  have hlen := enc_length big f v hfv hn
  have hup := h.upper
  have hlo := h.lower
  have hmu := hm.upper
  have hml := hm.lower
  have hacc : accessByOffset p o = p + o := by
    by_cases hlt : p + o < 2 ^ 64
    · exact Nat.mod_eq_of_lt hlt
    · exfalso
      have : p + o = 2 ^ 64 ∧ f.size = 0 := by omega
      have h0 := hm.upper
      have : (enc big f v).length = 0 := by omega
      cases f with
      | int s k => simp only [CType.Valid] at hfv; simp only [CType.size] at *; omega
      | flt wide =>
        have : 0 < (CType.flt wide).size := by cases wide <;> decide
        omega
      | bool => simp only [CType.size] at *; omega
      | struct gs =>
        simp only [CType.Valid] at hfv
        have := le_alignUp (max 1 (endOf gs 0)) (alignAll_small gs hfv).pos
        simp only [CType.size] at *; omega
  rw [hacc] at hmu hml ⊢
  have hal := hm.aligned
  rw [hacc] at hal
  have hfit : p + o - m.base + (enc big f v).length ≤ m.cells.length := by omega
  refine ⟨⟨m.base, patch m.cells (p + o - m.base) (enc big f v)⟩, ?_, ⟨?_, h.aligned, hlo, ?_, ?_⟩, ?_⟩
  · simp only [write, hal, hml, hmu, decide_true, Bool.and_self, beq_self_eq_true, guardUB_true, ok_bind]
    rfl
  · simp only [HasType]
    exact haveTypes_set h1 hf hn
  · simp only [patch_length hfit]; exact hup
  · obtain ⟨pre, post, e1, e2, e3⟩ := encAll_set big [] hv h1 hf hu
    have hb := h.bytes
    simp only [enc] at hb ⊢
    rw [e3 v hn]
    rw [e1] at hb
    have hlu := enc_length big f u hfv htu
    simp only [offsetOf, Nat.zero_add] at ho
    rw [List.length_nil, ← ho] at e2
    intro j b hj
    simp only [List.getElem?_drop]
    rw [patch_get hfit]
    by_cases hin : o ≤ j ∧ j < o + f.size
    · rw [if_pos (by omega)]
      have hj' : (enc big f v)[j - o]? = some (some b) := by
        rw [padTo, List.getElem?_append_left (by simp; omega), List.getElem?_append_left (by simp; omega), List.getElem?_append_right (by omega), e2] at hj
        exact hj
      rw [show p - m.base + j - (p + o - m.base) = j - o by omega]
      exact hj'
    · rw [if_neg (by omega), ← List.getElem?_drop]
      apply hb j b
      rw [← hj]
      simp only [padTo, List.length_append, hlu, hlen]
      rw [List.append_assoc (bs := post), List.append_assoc (bs := post)]
      exact get_outside (by omega) (by omega)
  · intro a hna
    simp only [Mem.byte]
    split
    · rw [patch_get hfit, if_neg (by omega)]
    · rfl

/-- A memory with the sample structure at address 4096. -/
example : ∃ m, Holds true m 4096 sample sampleVal ∧ m.base + m.cells.length ≤ 2 ^ 64 ∧ sample.Valid ∧
    read true (.struct [.int true 1, .bool]) m (accessByOffset 4096 4) = .ok (.agg [.num (-2), .num 1]) := by
  have hv : sample.Valid := by simp [sample, CType.Valid, AllValid]
  have ht : HasType sample sampleVal := by simp [sample, sampleVal, HasType, HaveTypes]
  have hl := enc_length true sample sampleVal hv ht
  have hs : sample.size = 8 := by decide
  have h : Holds true ⟨4096, enc true sample sampleVal⟩ 4096 sample sampleVal := by
    refine ⟨ht, by decide, Nat.le_refl _, ?_, ?_⟩
    · show 4096 + sample.size ≤ 4096 + (enc true sample sampleVal).length; omega
    · simpa using Agrees.refl _
  refine ⟨_, h, ?_, hv, C113_read h hv ?_ (i := 1) rfl rfl⟩ <;> · show 4096 + (enc true sample sampleVal).length ≤ _; omega

/-- C113: with any other offset, an access that is not aligned for the type or leaves the memory is undefined. -/
theorem C113_undefined (big : Bool) (t : CType) (m : Mem) (p offset : Nat) (v : Val)
    (h : ¬ (accessByOffset p offset % t.align = 0 ∧ m.base ≤ accessByOffset p offset ∧ accessByOffset p offset + t.size ≤ m.base + m.cells.length)) :
    read big t m (accessByOffset p offset) = .error .ub ∧ write big t m (accessByOffset p offset) v = .error .ub := by
  unfold read write
  by_cases h1 : accessByOffset p offset % t.align = 0
  · have h2 : (decide (m.base ≤ accessByOffset p offset) && decide (accessByOffset p offset + t.size ≤ m.base + m.cells.length)) = false := by
      rw [Bool.and_eq_false_iff, decide_eq_false_iff_not, decide_eq_false_iff_not]
      by_cases h2 : m.base ≤ accessByOffset p offset
      · exact Or.inr (fun h3 => h ⟨h1, h2, h3⟩)
      · exact Or.inl h2
    simp [h1, h2]
  · have h2 : (accessByOffset p offset % t.align == 0) = false := by simpa using h1
    rw [h2]; exact ⟨rfl, rfl⟩

/-- An integer of four bytes at an odd address. -/
example : read false (.int true 4) ⟨4096, List.replicate 8 (some 0)⟩ (accessByOffset 4096 1) = .error .ub :=
  (C113_undefined false _ _ 4096 1 (.num 0) (by decide)).1

end Verif.Bytes
