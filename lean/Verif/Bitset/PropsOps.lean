import Verif.Bitset.ModelOps
import Verif.Bitset.PropsObs
import Verif.Bitset.PropsAppend

/-! # C130: the operators of bitsets -/

namespace Verif.Bitset
open Verif.Cpp

variable {w : Nat}

theorem exchange_eq (σ : Nat → Bitset w) (d a : Nat) : exchange σ d a = upd (upd σ d (σ a)) a (σ d) := by
  funext k
  simp only [exchange, moveConstruct, moveAssign, upd]
  by_cases h1 : k = a
  · simp [h1]
  · by_cases h2 : k = d
    · subst h2
      simp [h1, Ne.symm h1]
    · simp [h1, h2]

theorem swap_eq (σ : Nat → Bitset w) (d a : Nat) : swap σ d a = upd (upd σ d (σ a)) a (σ d) := by
  funext k
  simp only [swap, swapMembers, upd]
  by_cases h1 : k = a
  · subst h1
    by_cases h2 : d = k
    · subst h2; simp
    · simp [h2]
  · by_cases h2 : k = d
    · subst h2
      simp [h1]
    · simp [h1, h2]

theorem swapIn_eq (b fresh : Bitset w) : swapIn b fresh = fresh := by simp [swapIn, swap_eq, upd]

/-- A single operation on one variable. -/
theorem one_op (h : IsBlockWidth w) {σ : Nat → Bitset w} {τ : Nat → List Bool} (hσ : ∀ k, HasL (σ k) (τ k)) (o : Op w) (hv : o.Valid τ) (hns : ∀ d a, o ≠ .swap d a) :
    ∃ r, o.result σ = .ok r ∧ HasL r (o.specResult τ) := by
  obtain ⟨σ', e, h'⟩ := exec_ok h σ τ hσ o hv
  cases hr : o.result σ with
  | error x => simp only [Op.exec, hr] at e; cases e
  | ok r =>
    refine ⟨r, rfl, ?_⟩
    have e' : Op.exec σ o = .ok (upd σ o.target r) := by
      simp only [Op.exec, hr, ok_bind]
      cases o with
      | swap d a => exact absurd rfl (hns d a)
      | _ => rfl
    have es : o.spec τ = upd τ o.target (o.specResult τ) := by
      cases o with
      | swap d a => exact absurd rfl (hns d a)
      | _ => rfl
    rw [e'] at e
    cases e
    have := h' o.target
    rw [es] at this
    simpa [upd] using this

theorem HasL.toString_ok (h : IsBlockWidth w) {b : Bitset w} {l : List Bool} (hL : HasL b l) : toString b = .ok (Seq.toString l) := by
  obtain ⟨s, e, h1, h2⟩ := Verif.Bitset.toString_ok h b hL.wf
  rw [e]
  congr 1
  rw [hL.size] at h1 h2
  apply List.ext_getElem (by simp [Seq.toString, h1])
  intro i g1 g2
  have := h2 (l.length - 1 - i) (by omega)
  rw [show l.length - 1 - (l.length - 1 - i) = i by omega, List.getElem?_eq_getElem g1] at this
  injection this with this
  rw [this, hL.bit, getD_lt (by omega)]
  simp [Seq.toString]

theorem upd_hasL {σ : Nat → Bitset w} {τ : Nat → List Bool} (hσ : ∀ k, HasL (σ k) (τ k)) (d : Nat) {r : Bitset w} {l : List Bool} (hr : HasL r l) :
    ∀ k, HasL (upd σ d r k) (upd τ d l k) := by
  intro k
  simp only [upd]
  split
  · exact hr
  · exact hσ k

theorem execX_ok (h : IsBlockWidth w) {s : StX w} {t : SpX} (hσ : ∀ k, HasL (s.vars k) (t.vars k)) (ho : s.out = t.out) (o : OpX w) (hv : o.Valid t) :
    ∃ s', o.exec s = .ok s' ∧ (∀ k, HasL (s'.vars k) ((o.spec t).vars k)) ∧ s'.out = (o.spec t).out := by
  cases o with
  | call o =>
    obtain ⟨σ', e, h'⟩ := exec_ok h s.vars t.vars hσ o hv
    exact ⟨⟨σ', s.out⟩, by simp only [OpX.exec, e, ok_bind, pure_ok], h', ho⟩
  | shl d a p =>
    obtain ⟨r, e, hr⟩ := one_op h (fun _ => hσ a) (.shiftLeft 0 p) trivial (by simp)
    simp only [Op.result] at e
    exact ⟨⟨upd s.vars d r, s.out⟩, by simp only [OpX.exec, opShl, opShlAssign, e, ok_bind, pure_ok], upd_hasL hσ d hr, ho⟩
  | shr d a p =>
    obtain ⟨r, e, hr⟩ := one_op h (fun _ => hσ a) (.shiftRight 0 p) trivial (by simp)
    simp only [Op.result] at e
    exact ⟨⟨upd s.vars d r, s.out⟩, by simp only [OpX.exec, opShr, opShrAssign, e, ok_bind, pure_ok], upd_hasL hσ d hr, ho⟩
  | shlAssign d p =>
    obtain ⟨r, e, hr⟩ := one_op h hσ (.shiftLeft d p) trivial (by simp)
    simp only [Op.result] at e
    exact ⟨⟨upd s.vars d r, s.out⟩, by simp only [OpX.exec, opShlAssign, e, ok_bind, pure_ok], upd_hasL hσ d hr, ho⟩
  | shrAssign d p =>
    obtain ⟨r, e, hr⟩ := one_op h hσ (.shiftRight d p) trivial (by simp)
    simp only [Op.result] at e
    exact ⟨⟨upd s.vars d r, s.out⟩, by simp only [OpX.exec, opShrAssign, e, ok_bind, pure_ok], upd_hasL hσ d hr, ho⟩
  | assignString d c =>
    obtain ⟨r, e, hr⟩ := one_op h hσ (.ofString d c) hv (by simp)
    simp only [Op.result] at e
    exact ⟨⟨upd s.vars d r, s.out⟩, by simp only [OpX.exec, assignString, e, ok_bind, pure_ok, swapIn_eq], upd_hasL hσ d hr, ho⟩
  | assignInt d n v =>
    obtain ⟨r, e, hr⟩ := one_op h hσ (.ofInt d n v) hv (by simp)
    simp only [Op.result] at e
    exact ⟨⟨upd s.vars d r, s.out⟩, by simp only [OpX.exec, assignInt, e, ok_bind, pure_ok, swapIn_eq], upd_hasL hσ d hr, ho⟩
  | swap d a =>
    refine ⟨⟨upd (upd s.vars d (s.vars a)) a (s.vars d), s.out⟩, by simp only [OpX.exec, swap_eq, pure_ok], ?_, ho⟩
    exact upd_hasL (upd_hasL hσ d (hσ a)) a (hσ d)
  | exchange d a =>
    refine ⟨⟨upd (upd s.vars d (s.vars a)) a (s.vars d), s.out⟩, by simp only [OpX.exec, exchange_eq, pure_ok], ?_, ho⟩
    exact upd_hasL (upd_hasL hσ d (hσ a)) a (hσ d)
  | writePtr d mem ptr n =>
    obtain ⟨r, e, hr⟩ := one_op h hσ (.write d mem ⟨ptr, 0⟩ n) hv (by simp)
    simp only [Op.result] at e
    cases hw : write (s.vars d) mem ⟨ptr, 0⟩ n with
    | error x => rw [hw] at e; cases e
    | ok q =>
      rw [hw] at e
      simp only [ok_bind, pure_ok, Except.ok.injEq] at e
      exact ⟨⟨upd s.vars d r, s.out⟩, by simp only [OpX.exec, writePtr, hw, ok_bind, pure_ok, e], upd_hasL hσ d hr, ho⟩
  | print a =>
    exact ⟨⟨s.vars, s.out ++ Seq.toString (t.vars a)⟩, by simp only [OpX.exec, print, (hσ a).toString_ok h, ok_bind, pure_ok], hσ, by simp only [OpX.spec, ho]⟩

/-- C130: programs with the operators `<<`, `<<=`, `>>`, `>>=`, the assignments of strings and integers, both ways to swap, `Write` from a pointer and stream output, mixed with the calls of C01: no allowed
statement fails, afterwards `GetSize` and `Test` of every variable are those of the sequence of booleans on which the same statements were done, and the stream has received the
texts of these sequences. -/
theorem C130_operators (h : IsBlockWidth w) (os : List (OpX w)) (hv : ValidX ⟨fun _ => [], []⟩ os) :
    ∃ s, runX ⟨fun _ => empty, []⟩ os = .ok s ∧ (∀ k, Shows (s.vars k) ((specRunX ⟨fun _ => [], []⟩ os).vars k)) ∧ s.out = (specRunX ⟨fun _ => [], []⟩ os).out := by
  have key : ∀ (os : List (OpX w)) (s : StX w) (t : SpX), (∀ k, HasL (s.vars k) (t.vars k)) → s.out = t.out → ValidX t os →
      ∃ s', runX s os = .ok s' ∧ (∀ k, HasL (s'.vars k) ((specRunX t os).vars k)) ∧ s'.out = (specRunX t os).out := by
    intro os
    induction os with
    | nil => intro s t h1 h2 _; exact ⟨s, rfl, h1, h2⟩
    | cons o os ih =>
      intro s t h1 h2 hv
      obtain ⟨s1, e1, k1, k2⟩ := execX_ok h h1 h2 o hv.1
      obtain ⟨s2, e2, k3, k4⟩ := ih s1 (o.spec t) k1 k2 hv.2
      exact ⟨s2, by simp only [runX, e1, ok_bind, e2], k3, k4⟩
  obtain ⟨s, e, h1, h2⟩ := key os ⟨fun _ => empty, []⟩ ⟨fun _ => [], []⟩ (fun _ => HasL.empty w) rfl hv
  exact ⟨s, e, fun k => (h1 k).shows h, h2⟩

/-- C130: what the shifts on sequences mean: the size stays, bit `i` of `a << p` is bit `i - p` of `a`, bit `i` of `a >> p` is bit `i + p` of `a`; bits that come from nowhere are 0. -/
theorem C130_shift_bits (l : List Bool) (p i : Nat) :
    (Seq.shiftLeft l p).length = l.length ∧ (Seq.shiftRight l p).length = l.length ∧
    (i < l.length → (Seq.shiftLeft l p)[i]? = some (if p ≤ i then l.getD (i - p) false else false)) ∧
    (i < l.length → (Seq.shiftRight l p)[i]? = some (l.getD (i + p) false)) := by
  refine ⟨by simp [Seq.shiftLeft]; omega, by simp [Seq.shiftRight]; omega, fun hi => ?_, fun hi => ?_⟩
  · simp only [Seq.shiftLeft]
    by_cases hp : p ≤ i
    · rw [List.getElem?_append_right (by simp; omega)]
      simp only [List.length_replicate, hp, if_true]
      rw [Nat.min_eq_left (by omega), List.getElem?_take_of_lt (by omega), List.getElem?_eq_getElem (by omega), List.getD_eq_getElem _ _ (by omega)]
    · rw [List.getElem?_append_left (by simp; omega)]
      simp only [hp, if_false]
      rw [List.getElem?_replicate]; simp; omega
  · simp only [Seq.shiftRight]
    by_cases hp : i + p < l.length
    · rw [List.getElem?_append_left (by simp; omega), List.getElem?_drop, List.getElem?_eq_getElem (by omega), List.getD_eq_getElem _ _ (by omega)]
      simp [Nat.add_comm]
    · rw [List.getElem?_append_right (by simp; omega)]
      simp only [List.length_drop]
      rw [List.getElem?_replicate, List.getD_eq_default _ _ (by omega)]
      simp; omega

/-- C130: `operator[]` of a constant bitset reads the bit, and fails its assertion out of range. -/
theorem C130_constIndex {b : Bitset w} {l : List Bool} (hl : Shows b l) (i : Nat) :
    (∀ (hi : i < l.length), constIndex b i = .ok l[i]) ∧ (l.length ≤ i → constIndex b i = .error .assert) := by
  refine ⟨fun hi => hl.2 i hi, fun hi => ?_⟩
  have hs : b.bitCount = l.length := hl.1
  simp only [constIndex, test, Cpp.assert]
  rw [if_neg (by simp; omega)]
  rfl

/-- C130: `Write` from a pointer begins at the lowest bit of the byte pointed to, and returns where to go on: the byte that holds the next bit, and the number of the bit in it. -/
theorem C130_writePtr (h : IsBlockWidth w) {b : Bitset w} (hb : Reachable b) {l : List Bool} (hl : Shows b l) (mem : List (BitVec 8)) (ptr n : Nat)
    (hv : WriteAllowed w l.length mem ⟨ptr, 0⟩ n) :
    ∃ b', writePtr b mem ptr n = .ok (b', ⟨ptr + n / 8, n % 8⟩) ∧ Shows b' (l ++ Seq.stream mem ptr 0 n) := by
  obtain ⟨b', q, e, h1, h2, h3⟩ := C08_write_partial h hb hl mem ⟨ptr, 0⟩ n hv
  refine ⟨b', ?_, h1⟩
  obtain ⟨p, t⟩ := q
  simp only at h2 h3
  have hp : p = ptr + n / 8 := by omega
  have ht : t = n % 8 := by omega
  rw [writePtr, e, hp, ht]

/-! A program that meets the hypotheses: `a = "1011"; b = a << 1; c = b >> 2; a <<= 3; b = 5; swap(a, b); t = move(b), b = move(b), b = move(t); the same with b and c; c.Write(ptr, 3); out << a << c`. -/

def ops_demo : List (OpX 8) :=
  [.assignString 0 ['1', '0', '1', '1'], .shl 1 0 1, .shr 2 1 2, .shlAssign 0 3, .assignInt 1 8 5#8, .swap 0 1, .exchange 1 1, .exchange 1 2, .writePtr 3 [0xA5#8, 0x0F#8] 1 3, .print 0, .print 1, .print 2, .print 3]

example : ValidX ⟨fun _ => [], []⟩ ops_demo := by
  refine ⟨by simp [OpX.Valid], trivial, trivial, trivial, by simp [OpX.Valid], trivial, trivial, trivial, ⟨by decide, by decide, by decide, ?_⟩, trivial, trivial, trivial, trivial, trivial⟩
  intro k h1 h2 h3
  exact absurd rfl h3

example : (specRunX ⟨fun _ => [], []⟩ ops_demo).out = "0000010100011000111".toList := by decide +kernel

end Verif.Bitset
