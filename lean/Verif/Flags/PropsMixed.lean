import Verif.Flags.SpecMixed
import Verif.Flags.Props

/-!
# C156: flags, enumerators and other types in one expression
-/

namespace Verif.Flags.Mixed
open Verif.Cpp

variable {x : Ctx}

/-- What a value says: an enumerator or flags that mean a set. -/
private def Rep (u : Val x) (s : x.c.Enums) : Prop :=
  (∃ i, EnumOk x.c i ∧ u = .enumerator (x.c.value i) ∧ s = only x.c i) ∨ ∃ v, u = .flags (.ok v) ∧ Shows v s

private theorem ctor_flags : ctor x .flags = some .copy := rfl

private theorem ctor_enum : ctor x .enumerator = some .enumerator := by
  cases h : x.isClass <;> simp [ctor, best, ctorRank, asInt, h]

private theorem Rep.toFlags (hl : x.c.last ≤ 63) {u : Val x} {s : x.c.Enums} (h : Rep u s) : ∃ v, u.toFlags = some (.ok v) ∧ Shows v s := by
  rcases h with ⟨i, hi, rfl, rfl⟩ | ⟨v, rfl, hv⟩
  · obtain ⟨v, e, hv⟩ := only_ok hl hi
    exact ⟨v, by simp [Val.toFlags, Val.ty, ctor_enum, e], hv⟩
  · exact ⟨v, by simp [Val.toFlags, Val.ty, ctor_flags], hv⟩

private theorem select_ff : select x .flags .flags = some .member := by
  simp [select, best, fnRank, flagsRank, ctor_flags, asInt, Ty.others]
private theorem select_fe : select x .flags .enumerator = some .member := by
  simp [select, best, fnRank, flagsRank, ctor_enum, asInt, Ty.others]
private theorem select_ef : select x .enumerator .flags = some .enumFlags := by
  cases h : x.isClass <;> simp [select, best, fnRank, asInt, h, Ty.others]
private theorem select_ee (hh : x.hidden = false) : select x .enumerator .enumerator = some .enumEnum := by
  cases h : x.isClass <;> simp [select, best, fnRank, asInt, h, hh, Ty.others, promoRank]

private theorem member_ok (hl : x.c.last ≤ 63) {op : BinOp} (ho : op = .xor → XorOk x.c) {v w : x.c.BitField} {s t : x.c.Enums} (hv : Shows v s) (hw : Shows w t) :
    ∃ r, op.member v w = .ok r ∧ Shows r (op.sets s t) := by
  cases op with
  | inter => exact ⟨_, rfl, shows_inter hv hw⟩
  | union => exact ⟨_, rfl, shows_union hv hw⟩
  | xor => exact xor_ok hl (ho rfl) hv hw

private theorem sets_comm {c : Cfg} (op : BinOp) (s t : c.Enums) : op.sets s t = op.sets t s := by
  cases op with
  | inter => exact Finset.inter_comm s t
  | union => exact Finset.union_comm s t
  | xor => exact symmDiff_comm s t

private theorem enumFlags_eq (c : Cfg) (op : BinOp) (e : Nat) (v : c.BitField) : op.enumFlags c e v = (do let l ← ofEnum c e; op.member v l) := by cases op <;> rfl
private theorem enumEnum_eq (c : Cfg) (op : BinOp) (e e' : Nat) :
    op.enumEnum c e e' = (do let l ← ofEnum c e; let r ← ofEnum c e'; op.member l r) := by cases op <;> rfl

private theorem binary_ok (hl : x.c.last ≤ 63) (hh : x.hidden = false) {op : BinOp} (ho : op = .xor → XorOk x.c) {u w : Val x} {s t : x.c.Enums}
    (hu : Rep u s) (hw : Rep w t) : ∃ r, u.binary op w = some r ∧ Rep r (op.sets s t) := by
  rcases hu with ⟨i, hi, rfl, rfl⟩ | ⟨v, rfl, hv⟩
  · obtain ⟨vi, ei, hvi⟩ := only_ok hl hi
    rcases hw with ⟨j, hj, rfl, rfl⟩ | ⟨w, rfl, hw⟩
    · obtain ⟨vj, ej, hvj⟩ := only_ok hl hj
      obtain ⟨r, er, hr⟩ := member_ok hl ho hvi hvj
      exact ⟨.flags (.ok r), by simp [Val.binary, Val.ty, select_ee hh, enumEnum_eq, ei, ej, er], .inr ⟨r, rfl, hr⟩⟩
    · obtain ⟨r, er, hr⟩ := member_ok hl ho hw hvi
      rw [sets_comm] at hr
      exact ⟨.flags (.ok r), by simp [Val.binary, Val.ty, select_ef, enumFlags_eq, ei, er], .inr ⟨r, rfl, hr⟩⟩
  · obtain ⟨w', ew, hw'⟩ := hw.toFlags hl
    obtain ⟨r, er, hr⟩ := member_ok hl ho hv hw'
    refine ⟨.flags (.ok r), ?_, .inr ⟨r, rfl, hr⟩⟩
    have hs : select x (Val.flags (x := x) (.ok v)).ty w.ty = some .member := by
      rcases hw with ⟨j, hj, rfl, rfl⟩ | ⟨w, rfl, hw⟩
      · exact select_fe
      · exact select_ff
    have hf : (Val.flags (x := x) (.ok v)).toFlags = some (.ok v) := by simp [Val.toFlags, Val.ty, ctor_flags]
    simp [Val.binary, hs, hf, ew, er]

private theorem compl_rep (hl : x.c.last ≤ 63) (hh : x.hidden = false) (ho : ComplOk x.c) {u : Val x} {s : x.c.Enums} (hu : Rep u s) :
    ∃ r, u.compl = some r ∧ Rep r sᶜ := by
  rcases hu with ⟨i, hi, rfl, rfl⟩ | ⟨v, rfl, hv⟩
  · obtain ⟨vi, ei, hvi⟩ := only_ok hl hi
    obtain ⟨r, er, hr⟩ := compl_ok hl ho hvi
    refine ⟨.flags (.ok r), ?_, .inr ⟨r, rfl, hr⟩⟩
    cases h : x.isClass <;> simp [Val.compl, best, notRank, asInt, h, hh, Ty.others, Val.ty, promoRank, enumCompl, ei, er]
  · obtain ⟨r, er, hr⟩ := compl_ok hl ho hv
    refine ⟨.flags (.ok r), ?_, .inr ⟨r, rfl, hr⟩⟩
    simp [Val.compl, best, notRank, asInt, Ty.others, Val.ty, Val.toFlags, ctor_flags, er]

private theorem eval_rep (hl : x.c.last ≤ 63) (hh : x.hidden = false) {f : x.c.BitField} {s : x.c.Enums} (hf : Shows f s) (a : Tree x) (ha : a.Ok) :
    ∃ u, a.eval f = some u ∧ Rep u (a.set s) := by
  induction a with
  | var => exact ⟨_, rfl, .inr ⟨f, rfl, hf⟩⟩
  | enumerator i => exact ⟨_, rfl, .inl ⟨i, ha, rfl, rfl⟩⟩
  | val v => exact ha.elim
  | compl a ih =>
    obtain ⟨u, e, hu⟩ := ih ha.2
    obtain ⟨r, e', hr⟩ := compl_rep hl hh ha.1 hu
    exact ⟨r, by simp [Tree.eval, e, e'], hr⟩
  | binary op a b iha ihb =>
    obtain ⟨u, e, hu⟩ := iha ha.2.1
    obtain ⟨w, e', hw⟩ := ihb ha.2.2
    obtain ⟨r, e'', hr⟩ := binary_ok hl hh ha.1 hu hw
    exact ⟨r, by simp [Tree.eval, e, e', e''], hr⟩

/-- C156: every expression of enumerators of `E` and flags of `E`, in any order and with any parentheses, means the set that it says wherever a `Flags<E>` is expected, whether `E` is an `enum class`
or not: the integers that the enumerators of an unscoped enumeration convert to never get in.  Missing: the conditions of C44 (`Tree.Ok`), and operators that are hidden. -/
theorem C156_sets_partial (hl : x.c.last ≤ 63) (hh : x.hidden = false) {f : x.c.BitField} {s : x.c.Enums} (hf : Shows f s) (a : Tree x) (ha : a.Ok) :
    ∃ v, a.flags f = some (.ok v) ∧ Shows v (a.set s) := by
  obtain ⟨u, e, hu⟩ := eval_rep hl hh hf a ha
  obtain ⟨v, e', hv⟩ := hu.toFlags hl
  exact ⟨v, by simp [Tree.flags, e, e'], hv⟩

private theorem run_sets (hl : x.c.last ≤ 63) (hh : x.hidden = false) {f : x.c.BitField} {s : x.c.Enums} (hf : Shows f s) (o : Stmt x) (ho : o.Ok) :
    ∃ v, o.run f = some (.ok v) ∧ Shows v (o.effect s) := by
  cases o with
  | assign a => exact C156_sets_partial hl hh hf a ho
  | set a =>
    obtain ⟨v, e, hv⟩ := C156_sets_partial hl hh hf a ho
    exact ⟨_, by simp only [Stmt.run, e, Option.map_some]; rfl, shows_union hf hv⟩
  | clear a =>
    obtain ⟨v, e, hv⟩ := C156_sets_partial hl hh hf a ho
    exact ⟨_, by simp only [Stmt.run, e, Option.map_some]; rfl, shows_sdiff hl hf hv⟩
  | update op a =>
    obtain ⟨v, e, hv⟩ := C156_sets_partial hl hh hf a ho.2
    cases op with
    | inter => exact ⟨_, by simp only [Stmt.run, e, Option.map_some]; rfl, shows_inter hf hv⟩
    | union => exact ⟨_, by simp only [Stmt.run, e, Option.map_some]; rfl, shows_union hf hv⟩
    | xor =>
      obtain ⟨r, er, hr⟩ := xor_ok hl (ho.1 rfl) hf hv
      refine ⟨r, ?_, hr⟩
      simp only [Stmt.run, e, Option.map_some, ok_bind, BinOp.assign, ← er]
      rfl

/-- C156: the same for programs. -/
theorem C156_programs_partial (hl : x.c.last ≤ 63) (hh : x.hidden = false) (os : List (Stmt x)) (ho : ∀ o ∈ os, o.Ok) :
    ∃ v, runProgram os 0 = some (.ok v) ∧ Shows v (setProgram os ∅) := by
  suffices h : ∀ (f : x.c.BitField) (s : x.c.Enums), Shows f s → ∃ v, runProgram os f = some (.ok v) ∧ Shows v (setProgram os s) from h _ _ (shows_empty x.c)
  induction os with
  | nil => exact fun f s hf => ⟨f, rfl, hf⟩
  | cons o os ih =>
    intro f s hf
    obtain ⟨v, e, hv⟩ := run_sets hl hh hf o (ho o (by simp))
    obtain ⟨r, e', hr⟩ := ih (fun o h => ho o (by simp [h])) v _ hv
    exact ⟨r, by simp [runProgram, e, e'], hr⟩

/-! ## Numbers -/

/-- An integer has the value `n`. -/
def HasValue (a : IntTy) (v : BitVec a.t) (n : Int) : Prop := (if a.sg then v.toInt else (v.toNat : Int)) = n

private theorem widen_eq {a : IntTy} {v : BitVec a.t} {n : Int} (h : HasValue a v n) (t : Nat) : widen a v t = BitVec.ofInt t n := by
  unfold HasValue at h
  unfold widen
  split at h
  · rename_i hs; rw [if_pos hs, BitVec.signExtend, h]
  · rename_i hs
    rw [if_neg hs, ← h]
    apply BitVec.eq_of_toNat_eq
    simp only [BitVec.toNat_setWidth, BitVec.toNat_ofInt]
    exact (Int.toNat_natCast (v.toNat % 2 ^ t)).symm

/-- Integers, `bool`, and enumerators of other unscoped enumerations, with their values. -/
def NumberLike (y : Val x) (n : Int) : Prop :=
  match y with
  | .num m => ∃ v, m.v = .ok v ∧ HasValue m.ty v n
  | .foreign k v => (x.other k).isClass = false ∧ HasValue (x.other k).under v n
  | _ => False

private theorem NumberLike.asNum {y : Val x} {n : Int} (h : NumberLike y n) : ∃ v, y.asNum.v = .ok v ∧ HasValue y.asNum.ty v n := by
  cases y with
  | num m => exact h
  | foreign k v => exact ⟨v, rfl, h.2⟩
  | _ => exact h.elim

private theorem NumberLike.ctor {y : Val x} {n : Int} (h : NumberLike y n) : ctor x y.ty = some .bitField := by
  cases y with
  | num m => simp [Mixed.ctor, best, ctorRank, Val.ty]
  | foreign k v => simp [Mixed.ctor, best, ctorRank, Val.ty, asInt, h.1]
  | _ => exact h.elim

private theorem NumberLike.toFlags {y : Val x} {n : Int} (h : NumberLike y n) : y.toFlags = some (.ok (BitVec.ofInt x.c.width n)) := by
  obtain ⟨v, e, hv⟩ := h.asNum
  have hc := h.ctor
  cases y with
  | num m => simp [Val.toFlags, hc, e, ofBitField, widen_eq hv]
  | foreign k v' => simp [Val.toFlags, hc, e, ofBitField, widen_eq hv]
  | _ => exact h.elim

private theorem select_fn {y : Val x} {n : Int} (h : NumberLike y n) : select x .flags y.ty = some .member := by
  simp [select, best, fnRank, flagsRank, h.ctor, asInt, Ty.others]

private theorem flags_member (op : BinOp) (m : x.c.BitField) {y : Val x} {r : x.c.BitField} (hs : select x .flags y.ty = some .member) (hr : y.toFlags = some (.ok r)) :
    (Val.flags (.ok m)).binary op y = some (.flags (op.member m r)) := by
  have hf : (Val.flags (x := x) (.ok m)).toFlags = some (.ok m) := by simp [Val.toFlags, Val.ty, ctor_flags]
  have hs' : select x (Val.flags (x := x) (.ok m)).ty y.ty = some .member := hs
  simp [Val.binary, hs', hf, hr]

/-- The enumerators whose bits are set in a number. -/
def bitsOf (c : Cfg) (n : Nat) : c.Enums := Finset.univ.filter (fun e => n.testBit e.val = true)

/-- C156: an integer that has bits of enumerators only means the set of these enumerators, where flags are expected and as the right operand of an operator (where the constructor from a bit field
takes it). -/
theorem C156_number (hl : x.c.last ≤ 63) {f : x.c.BitField} {s : x.c.Enums} (hf : Shows f s) {m : Num} {n : Nat} (hn : NumberLike (.num m : Val x) n) (hr : n < 2 ^ (x.c.last + 1)) :
    (∃ v, (Tree.val (.num m)).flags f = some (.ok v) ∧ Shows v (bitsOf x.c n)) ∧
    ∀ op : BinOp, (op = .xor → XorOk x.c) → ∃ v, (Tree.binary op .var (.val (.num m))).flags f = some (.ok v) ∧ Shows v (op.sets s (bitsOf x.c n)) := by
  have hb : Shows (BitVec.ofInt x.c.width (n : Int)) (bitsOf x.c n) := by
    rw [BitVec.ofInt_natCast]; exact shows_raw hl hr
  refine ⟨⟨_, by simp [Tree.flags, Tree.eval, hn.toFlags], hb⟩, fun op ho => ?_⟩
  obtain ⟨r, er, hr'⟩ := member_ok hl ho hf hb
  refine ⟨r, ?_, hr'⟩
  simp only [Tree.flags, Tree.eval, Option.bind_some, pure_ok, flags_member op f (select_fn hn) hn.toFlags, er]
  simp [Val.toFlags, Val.ty, ctor_flags]

/-- C156 fails for enumerators of all other unscoped enumerations, and for all numbers: they are taken as bits, cut to the width of the bit field, whatever they mean. -/
theorem C156_foreign_violated {y : Val x} {n : Int} (h : NumberLike y n) (f : x.c.BitField) :
    (Tree.val y).flags f = some (.ok (BitVec.ofInt x.c.width n)) ∧
    ∀ op : BinOp, (Tree.binary op .var (.val y)).flags f = some (op.member f (BitVec.ofInt x.c.width n)) := by
  refine ⟨by simp [Tree.flags, Tree.eval, h.toFlags], fun op => ?_⟩
  simp only [Tree.flags, Tree.eval, Option.bind_some, pure_ok, flags_member op f (select_fn h) h.toFlags]
  simp [Val.toFlags, Val.ty, ctor_flags]

/-- C156 fails for numbers whose bits are all above the bit field: they mean the empty set, so that `Test` of them is true of all flags. -/
theorem C156_cut_violated {y : Val x} {n : Int} (h : NumberLike y n) (hz : ((2 ^ x.c.width : Nat) : Int) ∣ n) (f : x.c.BitField) :
    ∃ v, (Tree.val y).flags f = some (.ok v) ∧ Shows v ∅ ∧ Flags.test f v = true := by
  have : BitVec.ofInt x.c.width n = 0#x.c.width := by
    apply BitVec.eq_of_toNat_eq
    rw [BitVec.toNat_ofInt, Int.emod_eq_zero_of_dvd hz]; simp
  exact ⟨0#x.c.width, by rw [(C156_foreign_violated h f).1, this], shows_empty x.c, by simp [Flags.test]⟩

/-- C156: floating point numbers are taken as well. -/
theorem C156_floating_violated (n : Nat) (f : x.c.BitField) :
    (Tree.val (.floating (some n) : Val x)).flags f = some (.ok (BitVec.ofNat x.c.width n)) ∧ (Tree.val (.floating none : Val x)).flags f = some (.error .ub) ∧
    ∀ op : BinOp, (Tree.binary op .var (.val (.floating (some n)))).flags f = some (op.member f (BitVec.ofNat x.c.width n)) := by
  have hc : ctor x .floating = some .bitField := by simp [ctor, best, ctorRank]
  have hs : select x .flags .floating = some .member := by simp [select, best, fnRank, flagsRank, hc, asInt, Ty.others]
  have ht : (Val.floating (some n) : Val x).toFlags = some (.ok (BitVec.ofNat x.c.width n)) := by simp [Val.toFlags, Val.ty, hc, ofBitField]
  refine ⟨by simp [Tree.flags, Tree.eval, ht], by simp [Tree.flags, Tree.eval, Val.toFlags, Val.ty, hc], fun op => ?_⟩
  simp only [Tree.flags, Tree.eval, Option.bind_some, pure_ok, flags_member op f (y := .floating (some n)) hs ht]
  simp [Val.toFlags, Val.ty, ctor_flags]

/-- C156: enumerators of another `enum class` and flags of other enumerations are refused: they are no flags, and no expression with them and an enumerator or flags of `E` is. -/
theorem C156_refused {y : Val x} (hy : (∃ k v, y = .foreign k v ∧ (x.other k).isClass = true) ∨ ∃ k, y = .otherFlags k) (f : x.c.BitField) :
    (Tree.val y).flags f = none ∧
    ∀ (op : BinOp) (z : Tree x), (z = .var ∨ ∃ i, z = .enumerator i) → (Tree.binary op z (.val y)).flags f = none ∧ (Tree.binary op (.val y) z).flags f = none := by
  have hc : ∀ k, ctor x (.otherFlags k) = none := fun k => by simp [ctor, best, ctorRank, asInt]
  have ho : ∀ k, (Val.otherFlags k : Val x).toFlags = none := fun k => by simp [Val.toFlags, Val.ty, hc]
  rcases hy with ⟨k, v, rfl, hk⟩ | ⟨k, rfl⟩
  · have hc' : ctor x (.foreign k) = none := by simp [ctor, best, ctorRank, asInt, hk]
    refine ⟨by simp [Tree.flags, Tree.eval, Val.toFlags, Val.ty, hc'], fun op z hz => ?_⟩
    rcases hz with rfl | ⟨i, rfl⟩
    · constructor <;> simp [Tree.flags, Tree.eval, Val.binary, Val.ty, select, best, fnRank, flagsRank, hc', asInt, hk, Ty.others]
    · constructor <;> simp [Tree.flags, Tree.eval, Val.binary, Val.ty, select, best, fnRank, flagsRank, hc', asInt, hk, Ty.others]
  · refine ⟨by simp [Tree.flags, Tree.eval, ho], fun op z hz => ?_⟩
    rcases hz with rfl | ⟨i, rfl⟩
    · constructor <;> simp [Tree.flags, Tree.eval, Val.binary, Val.ty, select, best, fnRank, flagsRank, otherRank, hc, asInt, Ty.others]
    · cases hx : x.isClass
      · constructor <;> simp [Tree.flags, Tree.eval, Val.binary, Val.ty, select, best, fnRank, flagsRank, otherRank, hc, asInt, Ty.others, hx, ho]
      · constructor <;> simp [Tree.flags, Tree.eval, Val.binary, Val.ty, select, best, fnRank, flagsRank, otherRank, hc, asInt, Ty.others, hx, ho]

/-- C156: an operator takes numbers (and enumerators of other unscoped enumerations) on the right of flags, but not on the left. -/
theorem C156_order_violated {y : Val x} {n : Int} (h : NumberLike y n) (op : BinOp) (f : x.c.BitField) :
    ((Tree.binary op .var (.val y)).eval f).isSome = true ∧ (Tree.binary op (.val y) .var).eval f = none := by
  constructor
  · simp [Tree.eval, flags_member op f (select_fn h) h.toFlags]
  · cases y with
    | num m => simp [Tree.eval, Val.binary, Val.ty, select, best, fnRank, asInt, Ty.others]
    | foreign k v => simp [Tree.eval, Val.binary, Val.ty, select, best, fnRank, asInt, Ty.others]
    | _ => exact h.elim

/-! ## Enumerators that are numbers -/

/-- Whether an element is in the combination of two sets, given whether it is in each of them. -/
def BinOp.holds : BinOp → Bool → Bool → Bool
  | .inter, p, q => p && q
  | .union, p, q => p || q
  | .xor, p, q => p != q

private theorem le_promote (a : IntTy) : 32 ≤ a.promote.t := by
  unfold IntTy.promote; split <;> simp_all

private theorem le_common {a b : IntTy} (ha : 32 ≤ a.t) (hb : 32 ≤ b.t) : 32 ≤ (a.common b).t := by
  unfold IntTy.common
  split
  · exact ha
  · split
    · exact hb
    · exact ha

private theorem widen_low (a : IntTy) (z : BitVec a.t) {i w : Nat} (ht : i < a.t) (hw : i < w) : (widen a z w).getLsbD i = z.getLsbD i := by
  unfold widen
  split
  · rw [BitVec.getLsbD_signExtend, if_pos ht]; simp [hw]
  · rw [BitVec.getLsbD_setWidth]; simp [hw]

/-- The low bits of a built-in operation as flags. -/
private theorem builtin_bits (op : BinOp) {a b : Num} {u : BitVec a.ty.t} {v : BitVec b.ty.t} (hu : a.v = .ok u) (hv : b.v = .ok v) {m n : Nat}
    (hm : HasValue a.ty u m) (hn : HasValue b.ty v n) (w : Nat) :
    ∃ r, (builtin op a b).v = .ok r ∧ ∀ i, i < 32 → i < w → (widen (builtin op a b).ty r w).getLsbD i = op.holds (m.testBit i) (n.testBit i) := by
  refine ⟨op.bits (widen a.ty u _) (widen b.ty v _), by simp [builtin, hu, hv], fun i hi hw => ?_⟩
  have ht : i < (a.ty.promote.common b.ty.promote).t := Nat.lt_of_lt_of_le hi (le_common (le_promote _) (le_promote _))
  have hlow : (op.bits (widen a.ty u (a.ty.promote.common b.ty.promote).t) (widen b.ty v (a.ty.promote.common b.ty.promote).t)).getLsbD i = op.holds (m.testBit i) (n.testBit i) := by
    rw [widen_eq hm, widen_eq hn, BitVec.ofInt_natCast, BitVec.ofInt_natCast]
    cases op <;> simp only [BinOp.bits, BinOp.holds, BitVec.getLsbD_and, BitVec.getLsbD_or, BitVec.getLsbD_xor, BitVec.getLsbD_ofNat, ht, decide_true, Bool.true_and]
  rw [← hlow]
  exact widen_low (a.ty.promote.common b.ty.promote) _ ht hw

private theorem enum_value {a : IntTy} (h8 : 8 ≤ a.t) {i : Nat} (hi : i < 32) : HasValue a (BitVec.ofNat a.t i) i := by
  have h1 : (2 : Nat) ^ 7 ≤ 2 ^ (a.t - 1) := Nat.pow_le_pow_right (by decide) (by omega)
  have h2 : 2 ^ a.t = 2 * 2 ^ (a.t - 1) := by rw [← Nat.pow_succ']; congr 1; omega
  have hn : (BitVec.ofNat a.t i).toNat = i := by rw [BitVec.toNat_ofNat, Nat.mod_eq_of_lt (by omega)]
  unfold HasValue
  split
  · rw [BitVec.toInt_eq_toNat_of_lt (by rw [hn]; omega), hn]
  · rw [hn]

private theorem num_toFlags (n : Num) : (Val.num n : Val x).toFlags = some (do let v ← n.v; pure (widen n.ty v x.c.width)) := by
  have hc : ctor x (.int n.ty) = some .bitField := by simp [ctor, best, ctorRank]
  simp only [Val.toFlags, Val.ty, hc]
  rfl

private theorem test_single (ha : x.c.autoFlag = true) {i : Nat} (hi : i < 32) (hw : i < x.c.width) :
    ∃ g, ofEnum x.c (x.c.value i) = .ok g ∧ ∀ v : x.c.BitField, Flags.test v g = v.getLsbD i := by
  have hs : (BitVec.ofNat x.c.width i).toNat = i := by
    rw [BitVec.toNat_ofNat, Nat.mod_eq_of_lt (Nat.lt_trans hw Nat.lt_two_pow_self)]
  refine ⟨(1#32 <<< i).setWidth x.c.width, by simp [ofEnum, getFlagValue, ha, Cfg.value, hs, hi, ofBitField, guardUB], fun v => ?_⟩
  have hbit : ∀ j, ((1#32 <<< i).setWidth x.c.width).getLsbD j = decide (j = i) := by
    intro j
    rw [BitVec.getLsbD_setWidth, BitVec.getLsbD_shiftLeft]
    by_cases hj : j = i
    · subst hj; simp [hw, hi]
    · simp only [hj, decide_false]
      by_cases h1 : j < i
      · simp [h1]
      · have : j - i ≠ 0 := by omega
        simp [this]
  simp only [Flags.test]
  cases hv : v.getLsbD i with
  | false =>
    rw [beq_eq_false_iff_ne]
    intro hh
    have := congrArg (fun b => b.getLsbD i) hh
    simp only [BitVec.getLsbD_and, hv, hbit, Bool.false_and] at this
    simp at this
  | true =>
    rw [beq_iff_eq]
    apply BitVec.eq_of_getLsbD_eq
    intro j hj
    rw [BitVec.getLsbD_and, hbit]
    by_cases hji : j = i
    · subst hji; simp [hv]
    · simp [hji]

/-- C156 fails for unscoped enumerations: `e op y` and `y op e` with a number `y` (or an enumerator of another unscoped enumeration) is the built-in operation on the value of `e`, not on its flag.
Taken as flags the result contains `e` as if `e` were no member of the left (or right) set, so wrongly for each operator and some `y`. -/
theorem C156_arithmetic_violated (ha : x.c.autoFlag = true) (hu : x.isClass = false) (h8 : 8 ≤ x.under.t) {y : Val x} {n : Nat} (hy : NumberLike y n) {i : Nat} (hi : i < 32)
    (hw : i < x.c.width) (op : BinOp) (f : x.c.BitField) :
    ∃ g v v', ofEnum x.c (x.c.value i) = .ok g ∧ (Tree.binary op (.enumerator i) (.val y)).flags f = some (.ok v) ∧ Flags.test v g = op.holds false (n.testBit i) ∧
      (Tree.binary op (.val y) (.enumerator i)).flags f = some (.ok v') ∧ Flags.test v' g = op.holds (n.testBit i) false := by
  have hself : i.testBit i = false := Nat.testBit_lt_two_pow Nat.lt_two_pow_self
  have he : HasValue x.under (BitVec.ofNat x.under.t (x.c.value i)) i := by simpa [Cfg.value, ha] using enum_value h8 hi
  obtain ⟨u, eu, hu'⟩ := hy.asNum
  have s1 : select x .enumerator y.ty = some .builtin := by
    cases y with
    | num m => simp [select, best, fnRank, asInt, hu, Ty.others, Val.ty]
    | foreign k v => simp [select, best, fnRank, asInt, hu, Ty.others, Val.ty, hy.1]
    | _ => exact hy.elim
  have s2 : select x y.ty .enumerator = some .builtin := by
    cases y with
    | num m => simp [select, best, fnRank, asInt, hu, Ty.others, Val.ty]
    | foreign k v => simp [select, best, fnRank, asInt, hu, Ty.others, Val.ty, hy.1]
    | _ => exact hy.elim
  obtain ⟨r, er, hr⟩ := builtin_bits op (a := (Val.enumerator (x := x) (x.c.value i)).asNum) rfl eu he hu' x.c.width
  obtain ⟨r', er', hr'⟩ := builtin_bits op (b := (Val.enumerator (x := x) (x.c.value i)).asNum) eu rfl hu' he x.c.width
  have h1 := hr i hi hw
  have h2 := hr' i hi hw
  rw [hself] at h1 h2
  obtain ⟨g, eg, hg⟩ := test_single ha hi hw
  refine ⟨g, _, _, eg, ?_, (hg _).trans h1, ?_, (hg _).trans h2⟩
  · have : select x (Val.enumerator (x := x) (x.c.value i)).ty y.ty = some .builtin := s1
    simp only [Tree.flags, Tree.eval, Option.bind_some, Val.binary, this, num_toFlags, er, ok_bind, pure_ok]
  · have : select x y.ty (Val.enumerator (x := x) (x.c.value i)).ty = some .builtin := s2
    simp only [Tree.flags, Tree.eval, Option.bind_some, Val.binary, this, num_toFlags, er', ok_bind, pure_ok]

/-- Number of bits of the values of a type that are not negative. -/
private def bound (a : IntTy) : Nat := if a.sg then a.t - 1 else a.t

private theorem value_bound {a : IntTy} {u : BitVec a.t} {m : Nat} (h : HasValue a u m) : m < 2 ^ bound a := by
  unfold HasValue at h
  unfold bound
  split at h
  · rename_i hs
    rw [if_pos hs]
    have h1 := BitVec.two_mul_toInt_lt (x := u)
    rw [h] at h1
    cases ht : a.t with
    | zero => rw [ht] at h1; simp only [Nat.zero_sub, Nat.pow_zero]; norm_num at h1; omega
    | succ t =>
      rw [ht] at h1
      have h2 : ((2 : Int) ^ (t + 1)) = 2 * ((2 ^ t : Nat) : Int) := by push_cast; ring
      rw [h2] at h1
      simp only [Nat.add_sub_cancel]
      omega
  · rename_i hs
    rw [if_neg hs]
    have : u.toNat = m := by exact_mod_cast h
    rw [← this]; exact u.isLt

private theorem bound_promote (a : IntTy) : bound a ≤ bound a.promote := by
  obtain ⟨sa, ta⟩ := a
  by_cases h : ta < 32
  · rw [show IntTy.promote ⟨sa, ta⟩ = ⟨true, 32⟩ by simp [IntTy.promote, h]]
    unfold bound
    cases sa <;> simp <;> omega
  · rw [show IntTy.promote ⟨sa, ta⟩ = ⟨sa, ta⟩ by simp [IntTy.promote, h]]

private theorem bound_of_common (a b : IntTy) : bound a ≤ bound (a.common b) ∧ bound b ≤ bound (a.common b) := by
  obtain ⟨sa, ta⟩ := a
  obtain ⟨sb, tb⟩ := b
  unfold IntTy.common
  by_cases h : ta = tb
  · subst h
    rw [if_pos rfl]
    unfold bound
    cases sa <;> cases sb <;> simp
  · rw [if_neg h]
    by_cases h' : ta < tb
    · rw [if_pos h']
      unfold bound
      cases sa <;> cases sb <;> simp <;> omega
    · rw [if_neg h']
      unfold bound
      cases sa <;> cases sb <;> simp at h h' ⊢ <;> omega

private theorem bound_common (a b : IntTy) : bound a ≤ bound (a.promote.common b.promote) ∧ bound b ≤ bound (a.promote.common b.promote) :=
  ⟨Nat.le_trans (bound_promote a) (bound_of_common _ _).1, Nat.le_trans (bound_promote b) (bound_of_common _ _).2⟩

private theorem builtin_all (op : BinOp) {a b : Num} {u : BitVec a.ty.t} {v : BitVec b.ty.t} (hu : a.v = .ok u) (hv : b.v = .ok v) {m n : Nat}
    (hm : HasValue a.ty u m) (hn : HasValue b.ty v n) (w : Nat) :
    ∃ r, (builtin op a b).v = .ok r ∧ ∀ i, i < w → (widen (builtin op a b).ty r w).getLsbD i = op.holds (m.testBit i) (n.testBit i) := by
  refine ⟨op.bits (widen a.ty u _) (widen b.ty v _), by simp [builtin, hu, hv], fun i hw => ?_⟩
  have hb := bound_common a.ty b.ty
  have bm := Nat.lt_of_lt_of_le (value_bound hm) (Nat.pow_le_pow_right (by decide) hb.1)
  have bn := Nat.lt_of_lt_of_le (value_bound hn) (Nat.pow_le_pow_right (by decide) hb.2)
  rw [widen_eq hm, widen_eq hn, BitVec.ofInt_natCast, BitVec.ofInt_natCast]
  show (widen (a.ty.promote.common b.ty.promote) (op.bits (BitVec.ofNat (a.ty.promote.common b.ty.promote).t m) (BitVec.ofNat (a.ty.promote.common b.ty.promote).t n)) w).getLsbD i = _
  generalize a.ty.promote.common b.ty.promote = c at bm bn
  have hz : ∀ k, bound c ≤ k → m.testBit k = false ∧ n.testBit k = false := fun k hk =>
    ⟨Nat.testBit_lt_two_pow (Nat.lt_of_lt_of_le bm (Nat.pow_le_pow_right (by decide) hk)), Nat.testBit_lt_two_pow (Nat.lt_of_lt_of_le bn (Nat.pow_le_pow_right (by decide) hk))⟩
  have hbit : ∀ k, (op.bits (BitVec.ofNat c.t m) (BitVec.ofNat c.t n)).getLsbD k = (decide (k < c.t) && op.holds (m.testBit k) (n.testBit k)) := fun k => by
    cases op <;> simp only [BinOp.bits, BinOp.holds, BitVec.getLsbD_and, BitVec.getLsbD_or, BitVec.getLsbD_xor, BitVec.getLsbD_ofNat] <;>
      cases decide (k < c.t) <;> simp
  have hf : op.holds false false = false := by cases op <;> rfl
  by_cases ht : i < c.t
  · rw [widen_low c _ ht hw, hbit]; simp [ht]
  · have hi : bound c ≤ i := by unfold bound; split <;> omega
    rw [(hz i hi).1, (hz i hi).2, hf]
    unfold widen
    split
    · rename_i hs
      have hl : bound c ≤ c.t - 1 := by unfold bound; rw [if_pos hs]
      rw [BitVec.getLsbD_signExtend, if_neg ht, BitVec.msb_eq_getLsbD_last, hbit, (hz _ hl).1, (hz _ hl).2, hf]
      simp
    · rw [BitVec.getLsbD_setWidth, hbit]; simp [ht]

/-- C156: numbers (that are not negative) and enumerators of other unscoped enumerations are combined as numbers of the wider type, so that as flags the result has the bits of the combination; two
enumerators of one enumeration that is enabled as flags are an exception (`C156_foreign_flags`). -/
theorem C156_numbers {y z : Val x} {m n : Nat} (hy : NumberLike y m) (hz : NumberLike z n) (hne : ∀ k u v, y = .foreign k u → z = .foreign k v → x.hidden = true ∨ (x.other k).flagged = false)
    (op : BinOp) (f : x.c.BitField) :
    ∃ v, (Tree.binary op (.val y) (.val z)).flags f = some (.ok v) ∧ ∀ i, i < x.c.width → v.getLsbD i = op.holds (m.testBit i) (n.testBit i) := by
  obtain ⟨u, eu, hu⟩ := hy.asNum
  obtain ⟨v, ev, hv⟩ := hz.asNum
  have hs : select x y.ty z.ty = some .builtin := by
    cases y with
    | num a =>
      cases z with
      | num b => simp [select, best, fnRank, asInt, Ty.others, Val.ty]
      | foreign k b => simp [select, best, fnRank, asInt, Ty.others, Val.ty, hz.1]
      | _ => exact hz.elim
    | foreign k a =>
      cases z with
      | num b => simp [select, best, fnRank, asInt, Ty.others, Val.ty, hy.1]
      | foreign l b =>
        by_cases hkl : l = k
        · subst hkl
          rcases hne l a b rfl rfl with h | h <;> simp [select, best, fnRank, asInt, Ty.others, Val.ty, hy.1, h]
        · simp [select, best, fnRank, asInt, Ty.others, Val.ty, hy.1, hz.1, hkl]
      | _ => exact hz.elim
    | _ => exact hy.elim
  obtain ⟨r, er, hr⟩ := builtin_all op eu ev hu hv x.c.width
  refine ⟨_, ?_, hr⟩
  simp only [Tree.flags, Tree.eval, Option.bind_some, Val.binary, hs, num_toFlags, er, ok_bind, pure_ok]

/-- A number of 64 bits and an `int`. -/
example : NumberLike (.num ⟨⟨false, 64⟩, .ok 0x100000001#64⟩ : Val x) (0x100000001 : Nat) ∧ NumberLike (.num ⟨⟨true, 32⟩, .ok 2#32⟩ : Val x) (2 : Nat) :=
  ⟨⟨_, rfl, by simp [HasValue]⟩, ⟨_, rfl, by simp [HasValue]⟩⟩

/-- C156 fails where another operator hides those of the library: enumerators of an `enum class` cannot be combined, and the combination of two enumerators of an unscoped enumeration is the built-in
operation on their values; taken as flags it never contains the greater one. -/
theorem C156_hidden_violated (hh : x.hidden = true) (i j : Nat) (f : x.c.BitField) :
    (x.isClass = true → ∀ op : BinOp, (Tree.binary op (.enumerator i) (.enumerator j) : Tree x).flags f = none ∧ (Tree.compl (.enumerator i) : Tree x).flags f = none) ∧
    (x.isClass = false → x.c.autoFlag = true → 8 ≤ x.under.t → i < 32 → j < 32 → max i j < x.c.width →
      ∃ g v, ofEnum x.c (x.c.value (max i j)) = .ok g ∧ (Tree.binary .union (.enumerator i) (.enumerator j) : Tree x).flags f = some (.ok v) ∧ Flags.test v g = false) := by
  constructor
  · intro hc op
    constructor
    · simp [Tree.flags, Tree.eval, Val.binary, Val.ty, select, best, fnRank, asInt, hc, hh, Ty.others]
    · simp [Tree.flags, Tree.eval, Val.compl, Val.ty, best, notRank, asInt, hc, hh, Ty.others]
  · intro hc ha h8 hi hj hw
    have s1 : select x .enumerator .enumerator = some .builtin := by simp [select, best, fnRank, asInt, hc, hh, Ty.others]
    have hei : HasValue x.under (BitVec.ofNat x.under.t (x.c.value i)) i := by simpa [Cfg.value, ha] using enum_value h8 hi
    have hej : HasValue x.under (BitVec.ofNat x.under.t (x.c.value j)) j := by simpa [Cfg.value, ha] using enum_value h8 hj
    obtain ⟨r, er, hr⟩ := builtin_bits .union (a := (Val.enumerator (x := x) (x.c.value i)).asNum) (b := (Val.enumerator (x := x) (x.c.value j)).asNum) rfl rfl hei hej x.c.width
    have hm : max i j < 32 := by omega
    have h1 := hr _ hm hw
    have b1 : i.testBit (max i j) = false := Nat.testBit_lt_two_pow (Nat.lt_of_le_of_lt (Nat.le_max_left i j) Nat.lt_two_pow_self)
    have b2 : j.testBit (max i j) = false := Nat.testBit_lt_two_pow (Nat.lt_of_le_of_lt (Nat.le_max_right i j) Nat.lt_two_pow_self)
    rw [b1, b2] at h1
    obtain ⟨g, eg, hg⟩ := test_single ha hm hw
    refine ⟨g, _, eg, ?_, (hg _).trans h1⟩
    have : select x (Val.enumerator (x := x) (x.c.value i)).ty (Val.enumerator (x := x) (x.c.value j)).ty = some .builtin := s1
    simp only [Tree.flags, Tree.eval, Option.bind_some, Val.binary, this, num_toFlags, er, ok_bind, pure_ok]

/-- C156 fails where another operator hides those of the library: the complement of an enumerator of an unscoped enumeration is the built-in one of its value, so that as flags it contains the enumerator
itself; if its type is smaller than `int` it has all bits that the value does not have. -/
theorem C156_complement_violated (hh : x.hidden = true) (hc : x.isClass = false) (ha : x.c.autoFlag = true) (h8 : 8 ≤ x.under.t) {i : Nat} (hi : i < 32) (hw : i < x.c.width) (f : x.c.BitField) :
    ∃ g v, ofEnum x.c (x.c.value i) = .ok g ∧ (Tree.compl (.enumerator i) : Tree x).flags f = some (.ok v) ∧ Flags.test v g = true ∧
      (x.under.t < 32 → ∀ k, k < x.c.width → v.getLsbD k = !i.testBit k) := by
  have he : HasValue x.under (BitVec.ofNat x.under.t (x.c.value i)) i := by simpa [Cfg.value, ha] using enum_value h8 hi
  obtain ⟨g, eg, hg⟩ := test_single ha hi hw
  have ev : (Tree.compl (.enumerator i) : Tree x).flags f = some (.ok (widen x.under.promote (~~~(widen x.under (BitVec.ofNat x.under.t (x.c.value i)) x.under.promote.t)) x.c.width)) := by
    have : best (α := Fn) (([Fn.member, .enumEnum, .builtin] ++ Ty.others .enumerator).map (fun f => (f, notRank x .enumerator f))) = some .builtin := by
      simp [best, notRank, asInt, hc, hh, Ty.others]
    simp only [Tree.flags, Tree.eval, Option.bind_some, Val.compl, Val.ty, this, num_toFlags, Val.asNum, pure_ok, ok_bind]
    rfl
  have low : ∀ k, k < x.under.promote.t → k < x.c.width →
      (widen x.under.promote (~~~(widen x.under (BitVec.ofNat x.under.t (x.c.value i)) x.under.promote.t)) x.c.width).getLsbD k = !i.testBit k := by
    intro k hk hkw
    rw [widen_low _ _ hk hkw, widen_eq he, BitVec.ofInt_natCast, BitVec.getLsbD_not, BitVec.getLsbD_ofNat]
    simp [hk]
  refine ⟨g, _, eg, ev, ?_, fun h k hk => ?_⟩
  · rw [hg, low i (Nat.lt_of_lt_of_le hi (le_promote _)) hw, Nat.testBit_lt_two_pow Nat.lt_two_pow_self]; rfl
  · by_cases hk32 : k < x.under.promote.t
    · exact low k hk32 hk
    · have hp : x.under.promote = ⟨true, 32⟩ := by simp [IntTy.promote, h]
      have hbig : i.testBit k = false := by
        rw [hp] at hk32
        exact Nat.testBit_lt_two_pow (Nat.lt_of_lt_of_le Nat.lt_two_pow_self (Nat.pow_le_pow_right (by decide) (by simp at hk32; omega)))
      rw [hbig]
      have h31 : i.testBit 31 = false := Nat.testBit_lt_two_pow (Nat.lt_trans hi (by decide))
      generalize hz : ~~~(widen x.under (BitVec.ofNat x.under.t (x.c.value i)) x.under.promote.t) = z
      have hmsb : z.getLsbD 31 = true := by
        rw [← hz, widen_eq he, BitVec.ofInt_natCast, BitVec.getLsbD_not, BitVec.getLsbD_ofNat]
        have : 31 < x.under.promote.t := le_promote _
        simp [this, h31]
      unfold widen
      rw [if_pos (by rw [hp])]
      rw [BitVec.getLsbD_signExtend, if_neg hk32, BitVec.msb_eq_getLsbD_last]
      have h31' : x.under.promote.t - 1 = 31 := by simp [hp]
      rw [h31', hmsb]
      simp [hk]

/-- C156: enumerators of another enumeration that is enabled as flags combine to its flags, even if it is unscoped, so the result is no number and does not convert to `Flags<E>`. -/
theorem C156_foreign_flags (hh : x.hidden = false) (k : Nat) (hk : (x.other k).flagged = true) (op : BinOp) (u v : BitVec (x.other k).under.t) (f : x.c.BitField) :
    (Tree.binary op (.val (.foreign k u)) (.val (.foreign k v)) : Tree x).eval f = some (.otherFlags k) ∧ (Tree.compl (.val (.foreign k u)) : Tree x).eval f = some (.otherFlags k) ∧
    (Tree.binary op (.val (.foreign k u)) (.val (.foreign k v)) : Tree x).flags f = none ∧ (Tree.compl (.val (.foreign k u)) : Tree x).flags f = none := by
  have h1 : (Tree.binary op (.val (.foreign k u)) (.val (.foreign k v)) : Tree x).eval f = some (.otherFlags k) := by
    cases hc : (x.other k).isClass <;> simp [Tree.eval, Val.binary, Val.ty, select, best, fnRank, asInt, Ty.others, hh, hk, hc, promoRank]
  have h2 : (Tree.compl (.val (.foreign k u)) : Tree x).eval f = some (.otherFlags k) := by
    cases hc : (x.other k).isClass <;> simp [Tree.eval, Val.compl, Val.ty, best, notRank, asInt, Ty.others, hh, hk, hc, promoRank]
  refine ⟨h1, h2, ?_, ?_⟩
  · simp [Tree.flags, h1, Val.toFlags, Val.ty, ctor, best, ctorRank, asInt]
  · simp [Tree.flags, h2, Val.toFlags, Val.ty, ctor, best, ctorRank, asInt]

/-! ## Comparisons and conversions -/

/-- C156: `f == a` compares the sets, for every expression `a` of enumerators and flags. -/
theorem C156_equality_partial (hl : x.c.last ≤ 63) (hh : x.hidden = false) {f : x.c.BitField} {s : x.c.Enums} (hf : Shows f s) (a : Tree x) (ha : a.Ok) :
    ∃ u, a.eval f = some u ∧ (Val.flags (.ok f)).equals u = some (.ok (decide (s = a.set s))) ∧
      (x.reversed = true ∨ (∃ v, u = .flags v) → u.equals (.flags (.ok f)) = some (.ok (decide (s = a.set s)))) := by
  obtain ⟨u, e, hu⟩ := eval_rep hl hh hf a ha
  obtain ⟨v, ev, hv⟩ := hu.toFlags hl
  have hff : (Val.flags (x := x) (.ok f)).toFlags = some (.ok f) := by simp [Val.toFlags, Val.ty, ctor_flags]
  have hd : Flags.eq f v = decide (s = a.set s) := by
    rw [Bool.eq_iff_iff, (C44_observers hl hf hv).2.1]; simp
  have hd' : Flags.eq v f = decide (s = a.set s) := by
    rw [Bool.eq_iff_iff, (C44_observers hl hv hf).2.1]; simp [eq_comm]
  refine ⟨u, e, by simp [Val.equals, Val.ty, hff, ev] ; exact hd, fun h => ?_⟩
  by_cases hu' : u.ty = .flags
  · simp only [Val.equals, hu', if_true, ev, hff, ok_bind, pure_ok, hd']
  · have hr : x.reversed = true := by
      rcases h with h | ⟨v, rfl⟩
      · exact h
      · exact absurd rfl hu'
    have : (Val.flags (x := x) (.ok f)).ty = .flags := rfl
    simp only [Val.equals, hu', if_false, this, hr, and_self, if_true, ev, hff, ok_bind, pure_ok, hd]

/-- C156: an enumerator cannot be the left operand of `==` (in C++17, and in C++20 since P2468, as `operator!=` is declared too). -/
theorem C156_equality_violated (hr : x.reversed = false) (e : Nat) (f : x.c.BitField) : (Val.enumerator e : Val x).equals (.flags (.ok f)) = none := by
  simp [Val.equals, Val.ty, hr]

/-- C156: the conversions of flags are explicit.  To `bool`: whether the set has a member; to integer types that are not smaller than the bit field: the bits of the members, from which the flags
can be made again; there are no others. -/
theorem C156_cast {f : x.c.BitField} {s : x.c.Enums} (hl : x.c.last ≤ 63) (hf : Shows f s) (g : x.c.BitField) :
    (∀ t, cast x.c false t f = none) ∧ cast x.c true .floating f = none ∧ cast x.c true .enumerator f = none ∧
    (∃ n, cast x.c true .bool f = some n ∧ NumberLike (.num n : Val x) (if s.Nonempty then 1 else 0)) ∧
    ∀ a : IntTy, (a.t < x.c.width → cast x.c true (.int a) f = none) ∧
      (x.c.width ≤ a.t → ∃ v, cast x.c true (.int a) f = some ⟨a, .ok v⟩ ∧ (∀ i, v.getLsbD i = true ↔ ∃ e ∈ s, e.val = i) ∧
        (Tree.val (.num ⟨a, .ok v⟩ : Val x)).flags g = some (.ok f)) := by
  refine ⟨fun t => rfl, rfl, rfl, ?_, fun a => ⟨fun h => ?_, fun h => ?_⟩⟩
  · refine ⟨⟨⟨false, 1⟩, .ok (BitVec.ofNat 1 (Flags.toBool f).toNat)⟩, ?_, BitVec.ofNat 1 (Flags.toBool f).toNat, rfl, ?_⟩
    · by_cases hw : x.c.width ≤ 8 <;> simp [cast, best, castRank, hw]
    · have := (C44_observers hl hf hf).2.2.2.1
      by_cases hs : s.Nonempty
      · rw [this.2 hs]; simp [HasValue, hs]
      · rw [Bool.eq_false_iff.2 (fun h => hs (this.1 h))]; simp [HasValue, hs]
  · simp [cast, best, castRank, Nat.not_le.2 h]
  · obtain ⟨h1, h2⟩ := C44_toInteger hf a.t h
    refine ⟨toInteger a.t f, by simp [cast, best, castRank, h], h1, ?_⟩
    simp only [Tree.flags, Tree.eval, Option.bind_some, num_toFlags, ok_bind, pure_ok]
    congr 2
    apply BitVec.eq_of_getLsbD_eq
    intro i hi
    have : i < a.t := by omega
    unfold widen
    split
    · rw [BitVec.getLsbD_signExtend, if_pos this]
      simp only [toInteger, BitVec.getLsbD_setWidth, hi, this, decide_true, Bool.true_and]
    · simp only [toInteger, BitVec.getLsbD_setWidth, hi, this, decide_true, Bool.true_and]

/-- An unscoped enumeration of 12 enumerators, beside an `enum class` and another unscoped enumeration. -/
private def ctxU (hidden : Bool) : Ctx := ⟨cfg12, false, ⟨false, 32⟩, fun k => ⟨k == 0, ⟨false, 8⟩, true⟩, hidden, false⟩

/-- `(A | C) & ~f ^ B`, on the set that the variable has. -/
example : ∃ v, (Tree.binary .xor (.binary .inter (.binary .union (.enumerator 0) (.enumerator 2)) (.compl .var)) (.enumerator 1) : Tree (ctxU false)).flags (BitVec.ofNat _ 1) = some (.ok v) ∧ v.toNat = 6 :=
  ⟨_, rfl, rfl⟩

example : (Tree.binary .xor (.binary .inter (.binary .union (.enumerator 0) (.enumerator 2)) (.compl .var)) (.enumerator 1) : Tree (ctxU false)).Ok :=
  ⟨fun _ => by show 11 < 63; decide, ⟨fun h => (by cases h), ⟨fun h => (by cases h), ⟨by decide, fun _ => by decide⟩, ⟨by decide, fun _ => by decide⟩⟩, ⟨rfl, by show 11 < 63; decide⟩, trivial⟩,
    ⟨by decide, fun _ => by decide⟩⟩

/-- `f = A | C; f.Clear(A); f ^= B | f` -/
example : ∃ v, runProgram (x := ctxU false) [.assign (.binary .union (.enumerator 0) (.enumerator 2)), .clear (.enumerator 0), .update .xor (.binary .union (.enumerator 1) .var)] 0
    = some (.ok v) ∧ v.toNat = 2 := ⟨_, rfl, rfl⟩

/-- The number 5, an enumerator of the other unscoped enumeration, and numbers that are not represented. -/
example : NumberLike (.num ⟨⟨true, 32⟩, .ok 5#32⟩ : Val (ctxU false)) 5 ∧ NumberLike (.foreign 1 5#8 : Val (ctxU false)) 5 ∧
    NumberLike (.num ⟨⟨true, 32⟩, .ok 0x30000#32⟩ : Val (ctxU false)) 0x30000 ∧ (((2 ^ cfg12.width : Nat) : Int) ∣ 0x30000) :=
  ⟨⟨_, rfl, rfl⟩, ⟨rfl, rfl⟩, ⟨_, rfl, rfl⟩, by decide⟩

/-- `D | 4` (enumerators number 3 and 2 meant) is 7: A, B and C.  With hidden operators `B | C` is 3: A and B. -/
example : (Tree.binary .union (.enumerator 3) (.val (.num ⟨⟨true, 32⟩, .ok 4#32⟩)) : Tree (ctxU false)).flags 0 = some (.ok 7#16) ∧
    (Tree.binary .union (.enumerator 1) (.enumerator 2) : Tree (ctxU true)).flags 0 = some (.ok 3#16) ∧
    (Tree.binary .union (.enumerator 1) (.enumerator 2) : Tree (ctxU false)).flags 0 = some (.ok 6#16) := ⟨rfl, rfl, rfl⟩

end Verif.Flags.Mixed
