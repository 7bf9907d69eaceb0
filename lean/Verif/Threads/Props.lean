import Mathlib.Data.List.Basic
import Verif.Threads.Model
import Verif.Bitset.Lemmas

/-!
# C160: threads that use different elements of one container
-/

namespace Verif.Threads
open Verif.Cpp Verif.Bitset

variable {β γ : Type}

/-! ## Specification -/

/-- The cell that the thread accesses with its next step, and whether it writes. -/
def Thread.next (th : Thread β γ) : Option (Nat × Bool) :=
  match th.ops, th.loaded with
  | [], _ => none
  | .read c _ :: _, _ => some (c, false)
  | .update c _ :: _, none => some (c, false)
  | .update c _ :: _, some _ => some (c, true)

/-- Two threads are about to access one cell, one of them to write: a data race, undefined behaviour in C++. -/
def Race (σ : St β γ) (t u : Nat) : Prop := t ≠ u ∧ ∃ c b, (σ.threads t).next = some (c, true) ∧ (σ.threads u).next = some (c, b)

/-- The thread has done everything. -/
def Done (σ : St β γ) (t : Nat) : Prop := (σ.threads t).ops = []

namespace BitOp

def bit : BitOp → Nat
  | .set i _ => i
  | .flip i => i
  | .test i => i

def writes : BitOp → Bool
  | .test _ => false
  | _ => true

/-- The bits after a call. -/
def effect (f : Nat → Bool) : BitOp → Nat → Bool
  | .set i v => fun k => if k = i then v else f k
  | .flip i => fun k => if k = i then !(f k) else f k
  | .test _ => f

end BitOp

/-- The bits after the calls of one thread. -/
def bitsAfter (f : Nat → Bool) (ops : List BitOp) : Nat → Bool := ops.foldl BitOp.effect f

/-- What the calls of `Test` give. -/
def bitsRead (f : Nat → Bool) : List BitOp → List Bool
  | [] => []
  | .test i :: ops => f i :: bitsRead f ops
  | op :: ops => bitsRead (op.effect f) ops

/-- No thread uses a bit of a block of which another thread writes a bit. -/
def BlocksApart (w : Nat) (progs : Nat → List BitOp) : Prop :=
  ∀ t u, t ≠ u → ∀ x ∈ progs t, ∀ y ∈ progs u, x.writes = true → x.bit / w ≠ y.bit / w

namespace ElemOp
variable {α : Type}

def index : ElemOp α → Nat
  | .assign i _ => i
  | .read i => i

def writes : ElemOp α → Bool
  | .assign _ _ => true
  | .read _ => false

end ElemOp

/-- The elements after the calls of one thread. -/
def elemsAfter {α : Type} (l : List α) : List (ElemOp α) → List α
  | [] => l
  | .assign i v :: ops => elemsAfter (l.set i v) ops
  | .read _ :: ops => elemsAfter l ops

/-- What a thread reads. -/
def elemsRead {α : Type} (l : List α) : List (ElemOp α) → List (Option α)
  | [] => []
  | .assign i v :: ops => elemsRead (l.set i v) ops
  | .read i :: ops => l[i]? :: elemsRead l ops

/-- No thread uses an element that another thread writes. -/
def ElemsApart {α : Type} (progs : Nat → List (ElemOp α)) : Prop :=
  ∀ t u, t ≠ u → ∀ x ∈ progs t, ∀ y ∈ progs u, x.writes = true → x.index ≠ y.index

/-! ## Proofs: cells -/

private def cell : Op β γ → Nat
  | .read c _ => c
  | .update c _ => c

private def writes : Op β γ → Bool
  | .read _ _ => false
  | .update _ _ => true

private def apply (l : List β) : Op β γ → List β
  | .read _ _ => l
  | .update c g => l.modify c g

private def reply (l : List β) : Op β γ → List γ
  | .read c f => (l[c]?.map f).toList
  | .update _ _ => []

private def after (l : List β) (ops : List (Op β γ)) : List β := ops.foldl apply l

private def replies (l : List β) : List (Op β γ) → List γ
  | [] => []
  | op :: ops => reply l op ++ replies (apply l op) ops

private theorem after_append (l : List β) (ops : List (Op β γ)) (op : Op β γ) : after l (ops ++ [op]) = apply (after l ops) op := by
  simp [after]

private theorem replies_append (l : List β) (ops : List (Op β γ)) (op : Op β γ) : replies l (ops ++ [op]) = replies l ops ++ reply (after l ops) op := by
  induction ops generalizing l with
  | nil => simp [replies, after]
  | cons x ops ih => simp only [List.cons_append, replies, ih, List.append_assoc]; rfl

private theorem after_same (l : List β) (c : Nat) (ops : List (Op β γ)) (h : ∀ op ∈ ops, writes op = true → cell op ≠ c) : (after l ops)[c]? = l[c]? := by
  induction ops generalizing l with
  | nil => rfl
  | cons op ops ih =>
    show (after (apply l op) ops)[c]? = _
    rw [ih _ (fun x hx => h x (List.mem_cons_of_mem _ hx))]
    cases op with
    | read _ _ => rfl
    | update d g =>
      have := h _ List.mem_cons_self rfl
      simp only [cell] at this
      simp [apply, this]

private def Apart (progs : Nat → List (Op β γ)) : Prop :=
  ∀ t u, t ≠ u → ∀ x ∈ progs t, ∀ y ∈ progs u, writes x = true → cell x ≠ cell y

private def remaining (th : Thread β γ) : Nat := 2 * th.ops.length - (if th.loaded.isSome then 1 else 0)

private structure Inv (init : List β) (progs pre : Nat → List (Op β γ)) (σ : St β γ) : Prop where
  split : ∀ t, progs t = pre t ++ (σ.threads t).ops
  answers : ∀ t, (σ.threads t).answers = replies init (pre t)
  loaded : ∀ t x, (σ.threads t).loaded = some x → ∃ c g rest, (σ.threads t).ops = .update c g :: rest ∧ σ.cells[c]? = some x
  used : ∀ t c, (∃ op ∈ progs t, cell op = c) → σ.cells[c]? = (after init (pre t))[c]?
  unused : ∀ c, (∀ t, ∀ op ∈ progs t, cell op ≠ c) → σ.cells[c]? = init[c]?
  len : σ.cells.length = init.length

private theorem put_same (f : Nat → Thread β γ) (t : Nat) (x : Thread β γ) : put f t x t = x := if_pos rfl
private theorem put_other (f : Nat → Thread β γ) {t u : Nat} (x : Thread β γ) (h : u ≠ t) : put f t x u = f u := if_neg h

private theorem step_inv {init : List β} {progs pre : Nat → List (Op β γ)} {σ : St β γ} (ha : Apart progs) (hb : ∀ t, ∀ op ∈ progs t, cell op < init.length)
    (hi : Inv init progs pre σ) (t : Nat) :
    ∃ σ' pre', step σ t = .ok σ' ∧ Inv init progs pre' σ' ∧ (∀ u, u ≠ t → σ'.threads u = σ.threads u) ∧
      (remaining (σ'.threads t) < remaining (σ.threads t) ∨ (σ.threads t).ops = [] ∧ σ' = σ) := by
  unfold step
  cases hops : (σ.threads t).ops with
  | nil => exact ⟨σ, pre, rfl, hi, fun _ _ => rfl, .inr ⟨rfl, rfl⟩⟩
  | cons op rest =>
    have hmem : op ∈ progs t := by rw [hi.split t, hops]; simp
    have hlt : cell op < σ.cells.length := by rw [hi.len]; exact hb t op hmem
    have hused := hi.used t (cell op) ⟨op, hmem, rfl⟩
    cases op with
    | read c f =>
      simp only [cell] at hlt hused
      have hx : (after init (pre t))[c]? = some σ.cells[c] := by rw [← hused]; exact List.getElem?_eq_getElem hlt
      refine ⟨⟨σ.cells, put σ.threads t ⟨rest, none, (σ.threads t).answers ++ [f σ.cells[c]]⟩⟩, fun u => if u = t then pre t ++ [.read c f] else pre u, by simp only [rd_ok hlt, ok_bind], ⟨?_, ?_, ?_, ?_, hi.unused, hi.len⟩, fun u hu => put_other _ _ hu, .inl ?_⟩
      · intro u
        by_cases hu : u = t
        · subst hu
          rw [if_pos rfl, hi.split u, hops]
          simp only [put_same, List.append_assoc, List.singleton_append]
        · simp only [put_other _ _ hu, if_neg hu]; exact hi.split u
      · intro u
        by_cases hu : u = t
        · subst hu
          simp only [put_same, if_true, replies_append, hi.answers u, reply, hx, Option.map_some, Option.toList_some]
        · simp only [put_other _ _ hu, if_neg hu]; exact hi.answers u
      · intro u x hl
        by_cases hu : u = t
        · subst hu; simp [put_same] at hl
        · simp only [put_other _ _ hu] at hl ⊢; exact hi.loaded u x hl
      · intro u d hd
        by_cases hu : u = t
        · subst hu
          rw [if_pos rfl, after_append]
          exact hi.used u d hd
        · rw [if_neg hu]; exact hi.used u d hd
      · have hld : (σ.threads t).loaded = none := by
          cases hl : (σ.threads t).loaded with
          | none => rfl
          | some x => obtain ⟨_, _, _, e, -⟩ := hi.loaded t x hl; rw [hops] at e; cases e
        simp only [put_same, remaining, hops, hld]
        simp
    | update c g =>
      simp only [cell] at hlt hused
      cases hl : (σ.threads t).loaded with
      | none =>
        refine ⟨⟨σ.cells, put σ.threads t { σ.threads t with loaded := some σ.cells[c] }⟩, pre, by simp only [rd_ok hlt, ok_bind], ⟨?_, ?_, ?_, hi.used, hi.unused, hi.len⟩, fun u hu => put_other _ _ hu, .inl ?_⟩
        · intro u
          by_cases hu : u = t
          · subst hu; simp only [put_same]; exact hi.split u
          · simp only [put_other _ _ hu]; exact hi.split u
        · intro u
          by_cases hu : u = t
          · subst hu; simp only [put_same]; exact hi.answers u
          · simp only [put_other _ _ hu]; exact hi.answers u
        · intro u x hx
          by_cases hu : u = t
          · subst hu
            simp only [put_same, Option.some.injEq] at hx ⊢
            subst hx
            exact ⟨c, g, rest, hops, List.getElem?_eq_getElem hlt⟩
          · simp only [put_other _ _ hu] at hx ⊢; exact hi.loaded u x hx
        · simp only [put_same, remaining, hops, hl]
          simp
      | some x =>
        obtain ⟨c', g', rest', e1, e2⟩ := hi.loaded t x hl
        rw [hops] at e1
        injection e1 with e3 e4
        injection e3 with e5 e6
        subst e5 e6 e4
        refine ⟨⟨σ.cells.set c (g x), put σ.threads t ⟨rest, none, (σ.threads t).answers⟩⟩, fun u => if u = t then pre t ++ [.update c g] else pre u, by simp only [wr_ok hlt, ok_bind], ⟨?_, ?_, ?_, ?_, ?_, by simpa using hi.len⟩, fun u hu => put_other _ _ hu, .inl ?_⟩
        · intro u
          by_cases hu : u = t
          · subst hu
            rw [if_pos rfl, hi.split u, hops]
            simp only [put_same, List.append_assoc, List.singleton_append]
          · simp only [put_other _ _ hu, if_neg hu]; exact hi.split u
        · intro u
          by_cases hu : u = t
          · subst hu
            simp only [put_same, if_true, replies_append, hi.answers u, reply, List.append_nil]
          · simp only [put_other _ _ hu, if_neg hu]; exact hi.answers u
        · intro u y hy
          by_cases hu : u = t
          · subst hu; simp [put_same] at hy
          · simp only [put_other _ _ hu] at hy ⊢
            obtain ⟨d, k, r, h1, h2⟩ := hi.loaded u y hy
            have hm : .update d k ∈ progs u := by rw [hi.split u, h1]; simp
            have hne : c ≠ d := ha t u (fun h => hu h.symm) _ hmem _ hm rfl
            exact ⟨d, k, r, h1, by rw [List.getElem?_set_ne hne]; exact h2⟩
        · intro u d hd
          by_cases hu : u = t
          · subst hu
            rw [if_pos rfl, after_append]
            simp only [apply, List.getElem?_modify]
            by_cases hcd : c = d
            · subst hcd
              rw [List.getElem?_set_self hlt, ← hused, e2]
              simp
            · rw [List.getElem?_set_ne hcd, hi.used u d hd]
              simp [hcd]
          · obtain ⟨op', hm, rfl⟩ := hd
            have hne : c ≠ cell op' := ha t u (fun h => hu h.symm) _ hmem _ hm rfl
            rw [if_neg hu, List.getElem?_set_ne hne]
            exact hi.used u _ ⟨op', hm, rfl⟩
        · intro d hd
          have hne : c ≠ d := hd t _ hmem
          simp only [List.getElem?_set_ne hne]
          exact hi.unused d hd
        · simp only [put_same, remaining, hops, hl]
          simp
          omega

private theorem run_inv {init : List β} {progs : Nat → List (Op β γ)} (ha : Apart progs) (hb : ∀ t, ∀ op ∈ progs t, cell op < init.length) (ts : List Nat) :
    ∀ (σ : St β γ) (pre : Nat → List (Op β γ)), Inv init progs pre σ →
    ∃ σ' pre', run σ ts = .ok σ' ∧ Inv init progs pre' σ' ∧ ∀ t, remaining (σ'.threads t) ≤ remaining (σ.threads t) - ts.count t := by
  induction ts with
  | nil => exact fun σ pre h => ⟨σ, pre, rfl, h, by simp⟩
  | cons t ts ih =>
    intro σ pre h
    obtain ⟨σ1, pre1, e1, h1, hne, hr⟩ := step_inv ha hb h t
    obtain ⟨σ2, pre2, e2, h2, hr2⟩ := ih σ1 pre1 h1
    refine ⟨σ2, pre2, by simp only [run, e1, ok_bind, e2], h2, fun u => ?_⟩
    have := hr2 u
    by_cases hu : u = t
    · subst hu
      rw [List.count_cons_self]
      rcases hr with hr | ⟨hr, rfl⟩
      · omega
      · have h0 : remaining (σ1.threads u) = 0 := by simp [remaining, hr]
        omega
    · rw [hne u hu] at this
      rw [List.count_cons_of_ne (fun h => hu h.symm)]
      exact this

private theorem no_race {init : List β} {progs pre : Nat → List (Op β γ)} {σ : St β γ} (ha : Apart progs) (hi : Inv init progs pre σ) (t u : Nat) : ¬ Race σ t u := by
  rintro ⟨hne, c, b, h1, h2⟩
  have key : ∀ v (x : Nat × Bool), (σ.threads v).next = some x → ∃ op ∈ progs v, cell op = x.1 ∧ (x.2 = true → writes op = true) := by
    intro v x hx
    unfold Thread.next at hx
    cases hops : (σ.threads v).ops with
    | nil => simp [hops] at hx
    | cons op rest =>
      refine ⟨op, by rw [hi.split v, hops]; simp, ?_⟩
      rw [hops] at hx
      cases op with
      | read c f => simp only [Option.some.injEq] at hx; subst hx; exact ⟨rfl, by simp⟩
      | update c g =>
        refine ⟨?_, fun _ => rfl⟩
        cases hl : (σ.threads v).loaded <;> simp only [hl, Option.some.injEq] at hx <;> subst hx <;> rfl
  obtain ⟨x, hx, e1, e2⟩ := key t _ h1
  obtain ⟨y, hy, e3, -⟩ := key u _ h2
  exact ha t u hne x hx y hy (e2 rfl) (by rw [e1, e3])

/-- All there is to know about threads that keep apart. -/
private theorem cells_apart {init : List β} {progs : Nat → List (Op β γ)} (ha : Apart progs) (hb : ∀ t, ∀ op ∈ progs t, cell op < init.length) (ts : List Nat) :
    ∃ σ, run (start init progs) ts = .ok σ ∧ (∀ t u, ¬ Race σ t u) ∧ (∀ t, 2 * (progs t).length ≤ ts.count t → Done σ t) ∧
      (∀ t, Done σ t → (σ.threads t).answers = replies init (progs t) ∧ ∀ c, (∃ op ∈ progs t, cell op = c) → σ.cells[c]? = (after init (progs t))[c]?) ∧
      (∀ c, (∀ t, ∀ op ∈ progs t, writes op = true → cell op ≠ c) → σ.cells[c]? = init[c]?) ∧ σ.cells.length = init.length := by
  obtain ⟨σ, pre, e, h, hr⟩ := run_inv ha hb ts (start init progs) (fun _ => [])
    ⟨fun _ => rfl, fun _ => rfl, fun _ _ h => by simp [start] at h, fun _ _ _ => rfl, fun _ _ => rfl, rfl⟩
  refine ⟨σ, e, no_race ha h, fun t ht => ?_, fun t hd => ?_, fun c hc => ?_, h.len⟩
  · have := hr t
    have h0 : remaining (σ.threads t) = 0 := by
      have h2 : remaining ((start init progs).threads t) ≤ 2 * (progs t).length := by simp [remaining, start]
      omega
    unfold Done
    cases hops : (σ.threads t).ops with
    | nil => rfl
    | cons op rest =>
      rw [remaining, hops] at h0
      simp only [List.length_cons] at h0
      (split_ifs at h0; omega)
  · have hp : progs t = pre t := by rw [h.split t, hd, List.append_nil]
    refine ⟨by rw [h.answers t, ← hp], fun c hc => by rw [h.used t c hc, ← hp]⟩
  · by_cases hu : ∃ t, ∃ op ∈ progs t, cell op = c
    · obtain ⟨t, op, hm, hop⟩ := hu
      rw [h.used t c ⟨op, hm, hop⟩]
      exact after_same _ _ _ (fun x hx => hc t x (by rw [h.split t]; exact List.mem_append_left _ hx))
    · exact h.unused c (fun t op hm hop => hu ⟨t, op, hm, hop⟩)

/-! ## Proofs: bits -/

variable {w : Nat}

private theorem code_cell (op : BitOp) : cell (op.code w) = op.bit / w := by cases op <;> rfl

private theorem code_writes (op : BitOp) : writes (op.code w) = op.writes := by cases op <;> rfl

private theorem div_mod_inj {i k : Nat} : i = k ↔ i / w = k / w ∧ i % w = k % w := by
  constructor
  · rintro rfl; exact ⟨rfl, rfl⟩
  · rintro ⟨e1, e2⟩
    rw [← Nat.div_add_mod i w, ← Nat.div_add_mod k w, e1, e2]

private theorem blk_modify (l : List (BitVec w)) (c : Nat) (g : BitVec w → BitVec w) (hc : c < l.length) (k : Nat) :
    blk (l.modify c g) k = if k = c then g (blk l c) else blk l k := by
  unfold blk
  rw [List.getElem?_modify]
  by_cases h : k = c
  · subst h; simp [hc]
  · simp [h, Ne.symm h]

private theorem bit_effect (hw : IsBlockWidth w) (l : List (BitVec w)) (op : BitOp) (hb : op.bit / w < l.length) (i : Nat) :
    bitAt (apply l (op.code w)) i = op.effect (bitAt l) i := by
  have hmod := Nat.mod_lt op.bit hw.pos
  have him := Nat.mod_lt i hw.pos
  cases op with
  | test k => rfl
  | set k v =>
    simp only [BitOp.bit] at hb hmod
    simp only [BitOp.code, apply, BitOp.effect, mask, getBlockIndex, getBitIndex_eq hw]
    unfold bitAt
    rw [blk_modify _ _ _ hb]
    by_cases he : i / w = k / w
    · rw [if_pos he, BitVec.getLsbD_or, BitVec.getLsbD_and, BitVec.getLsbD_and, BitVec.getLsbD_not, one_shl_bit _ _ hmod, he]
      by_cases hem : i % w = k % w
      · rw [if_pos (div_mod_inj.2 ⟨he, hem⟩)]
        simp only [hem, decide_true, Bool.not_true, Bool.and_false, Bool.false_or, Bool.and_true]
        cases v with
        | false => simp
        | true => rw [if_pos rfl, BitVec.neg_one_eq_allOnes]; simp [hmod]
      · rw [if_neg (fun e => hem (div_mod_inj.1 e).2)]
        simp [hem, him]
    · rw [if_neg he, if_neg (fun e => he (div_mod_inj.1 e).1)]
  | flip k =>
    simp only [BitOp.bit] at hb hmod
    simp only [BitOp.code, apply, BitOp.effect, mask, getBlockIndex, getBitIndex_eq hw]
    unfold bitAt
    rw [blk_modify _ _ _ hb]
    by_cases he : i / w = k / w
    · rw [if_pos he, BitVec.getLsbD_xor, one_shl_bit _ _ hmod, he]
      by_cases hem : i % w = k % w
      · rw [if_pos (div_mod_inj.2 ⟨he, hem⟩)]
        simp [hem]
      · rw [if_neg (fun e => hem (div_mod_inj.1 e).2)]
        simp [hem]
    · rw [if_neg he, if_neg (fun e => he (div_mod_inj.1 e).1)]

private theorem apply_length (l : List β) (op : Op β γ) : (apply l op).length = l.length := by cases op <;> simp [apply]

private theorem bits_after (hw : IsBlockWidth w) (ops : List BitOp) : ∀ (l : List (BitVec w)), (∀ op ∈ ops, op.bit / w < l.length) → ∀ i,
    bitAt (after l (ops.map (·.code w))) i = bitsAfter (bitAt l) ops i := by
  induction ops with
  | nil => intros; rfl
  | cons op ops ih =>
    intro l hb i
    have h1 := ih (apply l (op.code w)) (fun x hx => by rw [apply_length]; exact hb x (List.mem_cons_of_mem _ hx)) i
    have h2 : bitAt (apply l (op.code w)) = op.effect (bitAt l) := funext (bit_effect hw l op (hb _ List.mem_cons_self))
    rw [h2] at h1
    exact h1

private theorem bits_read (hw : IsBlockWidth w) (ops : List BitOp) : ∀ (l : List (BitVec w)), (∀ op ∈ ops, op.bit / w < l.length) →
    replies l (ops.map (·.code w)) = bitsRead (bitAt l) ops := by
  induction ops with
  | nil => intros; rfl
  | cons op ops ih =>
    intro l hb
    have h1 := ih (apply l (op.code w)) (fun x hx => by rw [apply_length]; exact hb x (List.mem_cons_of_mem _ hx))
    have h2 : bitAt (apply l (op.code w)) = op.effect (bitAt l) := funext (bit_effect hw l op (hb _ List.mem_cons_self))
    have hlt := hb op List.mem_cons_self
    rw [h2] at h1
    simp only [List.map_cons, replies, h1]
    cases op with
    | set k v => rfl
    | flip k => rfl
    | test k =>
      simp only [BitOp.bit] at hlt
      simp only [BitOp.code, reply, BitOp.effect, bitsRead, mask, getBlockIndex, getBitIndex_eq hw, List.getElem?_eq_getElem hlt, Option.map_some, Option.toList_some,
        List.singleton_append, and_mask_ne _ _ (Nat.mod_lt k hw.pos)]
      unfold bitAt
      rw [blk_lt hlt]

private theorem bitsAfter_congr {f g : Nat → Bool} {i : Nat} (h : f i = g i) (ops : List BitOp) : bitsAfter f ops i = bitsAfter g ops i := by
  induction ops generalizing f g with
  | nil => exact h
  | cons op ops ih =>
    refine ih (f := op.effect f) (g := op.effect g) ?_
    cases op <;> simp [BitOp.effect, h]

private theorem bitsRead_congr {n : Nat} (ops : List BitOp) : ∀ {f g : Nat → Bool}, (∀ i < n, f i = g i) → (∀ op ∈ ops, op.bit < n) → bitsRead f ops = bitsRead g ops := by
  induction ops with
  | nil => intros; rfl
  | cons op ops ih =>
    intro f g h hb
    have h1 : ∀ i < n, op.effect f i = op.effect g i := by
      intro i hi
      cases op <;> simp [BitOp.effect, h i hi]
    have h2 := ih h1 (fun x hx => hb x (List.mem_cons_of_mem _ hx))
    cases op with
    | set k v => exact h2
    | flip k => exact h2
    | test k => exact congrArg₂ List.cons (h k (hb _ List.mem_cons_self)) h2

private theorem test_cells (hw : IsBlockWidth w) {l : List (BitVec w)} {n : Nat} (hl : l.length = nb w n) {i : Nat} (hi : i < n) : test (⟨l, n⟩ : Bitset w) i = .ok (bitAt l i) := by
  have hmod := Nat.mod_lt i hw.pos
  have hidx : i / w < l.length := by rw [hl]; exact div_lt_nb hw.pos hi
  simp only [test, hi, decide_true, assert_true, ok_bind, getBlockIndex, getBitIndex_eq hw, rd_blk hidx, shl_ok _ hmod, pure_ok, and_mask_ne _ _ hmod]
  rfl

/-! ## Theorems -/

/-- **C160** Threads that use bits of one bitset, where no thread uses a block of which another writes a bit: under every schedule no access fails and there is no data race, each thread that has done
everything has read and left in its blocks what it would if it were alone, bits of other blocks are as before, and each thread ends after finitely many of its steps. -/
theorem C160_bits_partial (hw : IsBlockWidth w) {b : Bitset w} (wf : WF b) {f : Nat → Bool} (hf : ∀ i < b.bitCount, test b i = .ok (f i)) {progs : Nat → List BitOp}
    (hb : ∀ t, ∀ op ∈ progs t, op.bit < b.bitCount) (ha : BlocksApart w progs) (schedule : List Nat) :
    ∃ σ, run (start b.blocks (fun t => (progs t).map (·.code w))) schedule = .ok σ ∧ (∀ t u, ¬ Race σ t u) ∧
      (∀ t, 2 * (progs t).length ≤ schedule.count t → Done σ t) ∧
      (∀ t, Done σ t → (σ.threads t).answers = bitsRead f (progs t) ∧
        ∀ i < b.bitCount, (∃ op ∈ progs t, op.bit / w = i / w) → test ⟨σ.cells, b.bitCount⟩ i = .ok (bitsAfter f (progs t) i)) ∧
      (∀ i < b.bitCount, (∀ t, ∀ op ∈ progs t, op.writes = true → op.bit / w ≠ i / w) → test ⟨σ.cells, b.bitCount⟩ i = .ok (f i)) := by
  have hfb : ∀ i < b.bitCount, bitAt b.blocks i = f i := by
    intro i hi
    have := hf i hi
    rw [test_ok hw b wf i hi] at this
    injection this
  have hlt : ∀ t, ∀ op ∈ progs t, op.bit / w < b.blocks.length := fun t op hm => by
    rw [wf.len]; exact div_lt_nb hw.pos (hb t op hm)
  have ha' : Apart (fun t => (progs t).map (·.code w)) := by
    intro t u hne x hx y hy hwr
    obtain ⟨x, hx', rfl⟩ := List.mem_map.1 hx
    obtain ⟨y, hy', rfl⟩ := List.mem_map.1 hy
    rw [code_writes] at hwr
    rw [code_cell, code_cell]
    exact ha t u hne x hx' y hy' hwr
  obtain ⟨σ, e, h1, h2, h3, h4, h5⟩ := cells_apart (init := b.blocks) ha' (fun t op hm => by
    obtain ⟨x, hx, rfl⟩ := List.mem_map.1 hm
    rw [code_cell]; exact hlt t x hx) schedule
  have hlen : σ.cells.length = nb w b.bitCount := by rw [h5, wf.len]
  refine ⟨σ, e, h1, fun t ht => h2 t (by simpa using ht), fun t hd => ?_, fun i hi hn => ?_⟩
  · obtain ⟨g1, g2⟩ := h3 t hd
    refine ⟨?_, ?_⟩
    · rw [g1, bits_read hw _ _ (hlt t)]
      exact bitsRead_congr (n := b.bitCount) _ hfb (hb t)
    · rintro i hi ⟨op, hm, he⟩
      rw [test_cells hw hlen hi, ← bitsAfter_congr (hfb i hi), ← bits_after hw _ _ (hlt t)]
      have := g2 (i / w) ⟨op.code w, List.mem_map.2 ⟨op, hm, rfl⟩, by rw [code_cell, he]⟩
      unfold bitAt blk
      rw [this]
  · rw [test_cells hw hlen hi, ← hfb i hi]
    have := h4 (i / w) (fun t op hm hwr => by
      obtain ⟨x, hx, rfl⟩ := List.mem_map.1 hm
      rw [code_cell]
      rw [code_writes] at hwr
      exact hn t x hx hwr)
    unfold bitAt blk
    rw [this]

/-- **C160** Elements of a vector or an array: any use of different elements by different threads is like each thread alone. -/
theorem C160_elements {α : Type} {l : List α} {progs : Nat → List (ElemOp α)} (hb : ∀ t, ∀ op ∈ progs t, op.index < l.length) (ha : ElemsApart progs) (schedule : List Nat) :
    ∃ σ, run (start l (fun t => (progs t).map ElemOp.code)) schedule = .ok σ ∧ (∀ t u, ¬ Race σ t u) ∧
      (∀ t, 2 * (progs t).length ≤ schedule.count t → Done σ t) ∧
      (∀ t, Done σ t → (σ.threads t).answers.map some = elemsRead l (progs t) ∧ ∀ i, (∃ op ∈ progs t, op.index = i) → σ.cells[i]? = (elemsAfter l (progs t))[i]?) ∧
      (∀ i, (∀ t, ∀ op ∈ progs t, op.writes = true → op.index ≠ i) → σ.cells[i]? = l[i]?) := by
  have cc : ∀ op : ElemOp α, cell op.code = op.index := by rintro (_ | _) <;> rfl
  have cw : ∀ op : ElemOp α, writes op.code = op.writes := by rintro (_ | _) <;> rfl
  have ha' : Apart (fun t => (progs t).map ElemOp.code) := by
    intro t u hne x hx y hy hwr
    obtain ⟨x, hx', rfl⟩ := List.mem_map.1 hx
    obtain ⟨y, hy', rfl⟩ := List.mem_map.1 hy
    rw [cw] at hwr
    rw [cc, cc]
    exact ha t u hne x hx' y hy' hwr
  have haf : ∀ (ops : List (ElemOp α)) (l : List α), after l (ops.map ElemOp.code) = elemsAfter l ops := by
    intro ops
    induction ops with
    | nil => intro l; rfl
    | cons op ops ih =>
      intro l
      cases op with
      | assign i v =>
        show after (l.modify i (fun _ => v)) (ops.map ElemOp.code) = elemsAfter (l.set i v) ops
        rw [ih]
        congr 1
        apply List.ext_getElem?
        intro k
        rw [List.getElem?_modify, List.getElem?_set]
        by_cases h : i = k
        · subst h; by_cases hl : i < l.length <;> simp [hl]
        · simp [h]
      | read i => exact ih l
  have hrd : ∀ (ops : List (ElemOp α)) (l : List α), (∀ op ∈ ops, op.index < l.length) → (replies l (ops.map ElemOp.code)).map some = elemsRead l ops := by
    intro ops
    induction ops with
    | nil => intro l _; rfl
    | cons op ops ih =>
      intro l hl
      cases op with
      | assign i v =>
        have hm : l.modify i (fun _ => v) = l.set i v := haf [.assign i v] l
        show (replies (l.modify i (fun _ => v)) (ops.map ElemOp.code)).map some = elemsRead (l.set i v) ops
        rw [hm]
        exact ih _ (fun x hx => by rw [List.length_set]; exact hl x (List.mem_cons_of_mem _ hx))
      | read i =>
        have hi : i < l.length := hl _ List.mem_cons_self
        have := ih l (fun x hx => hl x (List.mem_cons_of_mem _ hx))
        simp only [List.map_cons, replies, ElemOp.code, reply, List.getElem?_eq_getElem hi, Option.map_some, id, Option.toList_some, List.singleton_append, elemsRead, apply, this]
  obtain ⟨σ, e, h1, h2, h3, h4, h5⟩ := cells_apart (init := l) ha' (fun t op hm => by
    obtain ⟨x, hx, rfl⟩ := List.mem_map.1 hm
    rw [cc]; exact hb t x hx) schedule
  refine ⟨σ, e, h1, fun t ht => h2 t (by simpa using ht), fun t hd => ?_, fun i hn => ?_⟩
  · obtain ⟨g1, g2⟩ := h3 t hd
    refine ⟨by rw [g1, hrd _ _ (hb t)], ?_⟩
    rintro i ⟨op, hm, he⟩
    rw [g2 i ⟨op.code, List.mem_map.2 ⟨op, hm, rfl⟩, by rw [cc, he]⟩, haf]
  · refine h4 i (fun t op hm hwr => ?_)
    obtain ⟨x, hx, rfl⟩ := List.mem_map.1 hm
    rw [cc]
    rw [cw] at hwr
    exact hn t x hx hwr

/-- **C160, violated** Two threads that write different bits of one block: for every bitset there is a schedule after which the bit that the first thread changed has its old value, although both have
ended; and the accesses are a data race. -/
theorem C160_same_block_violated (hw : IsBlockWidth w) {b : Bitset w} (wf : WF b) {x y : BitOp} (hx : x.writes = true) (hy : y.writes = true) (hxb : x.bit < b.bitCount) (hyb : y.bit < b.bitCount)
    (hne : x.bit ≠ y.bit) (hsame : x.bit / w = y.bit / w) :
    ∃ σ1 σ2, run (start b.blocks (fun t => (if t = 0 then [x] else if t = 1 then [y] else []).map (·.code w))) [0, 1] = .ok σ1 ∧ Race σ1 0 1 ∧
      run σ1 [0, 1] = .ok σ2 ∧ (∀ t, Done σ2 t) ∧ test ⟨σ2.cells, b.bitCount⟩ x.bit = test b x.bit := by
  have hlx : x.bit / w < b.blocks.length := by rw [wf.len]; exact div_lt_nb hw.pos hxb
  obtain ⟨gx, ex⟩ : ∃ g, x.code w = .update (x.bit / w) g := by cases x <;> first | exact ⟨_, rfl⟩ | simp [BitOp.writes] at hx
  obtain ⟨gy, ey⟩ : ∃ g, y.code w = .update (x.bit / w) g := by rw [hsame]; cases y <;> first | exact ⟨_, rfl⟩ | simp [BitOp.writes] at hy
  let th0 : Thread (BitVec w) Bool := ⟨[x.code w], some b.blocks[x.bit / w], []⟩
  let th1 : Thread (BitVec w) Bool := ⟨[y.code w], some b.blocks[x.bit / w], []⟩
  have start0 : (start b.blocks (fun t => (if t = 0 then [x] else if t = 1 then [y] else []).map (·.code w))).threads 0 = ⟨[x.code w], none, []⟩ := rfl
  refine ⟨⟨b.blocks, put (put (start b.blocks (fun t => (if t = 0 then [x] else if t = 1 then [y] else []).map (·.code w))).threads 0 th0) 1 th1⟩,
    ⟨b.blocks.set (x.bit / w) (gy b.blocks[x.bit / w]), put (put (put (put (start b.blocks (fun t => (if t = 0 then [x] else if t = 1 then [y] else []).map (·.code w))).threads 0 th0) 1 th1) 0 ⟨[], none, []⟩) 1 ⟨[], none, []⟩⟩,
    ?_, ⟨by decide, x.bit / w, true, ?_, ?_⟩, ?_, ?_, ?_⟩
  · simp [run, step, start, put, ex, ey, rd_ok hlx, th0, th1]
  · simp [Thread.next, put, th0, ex]
  · simp [Thread.next, put, th1, ey]
  · have hlx' : x.bit / w < (b.blocks.set (x.bit / w) (gx b.blocks[x.bit / w])).length := by simpa using hlx
    simp [run, step, start, put, ex, ey, wr_ok hlx, wr_ok hlx', th0, th1]
  · intro t
    by_cases h1 : t = 1
    · subst h1; simp [Done, put]
    · by_cases h0 : t = 0
      · subst h0; simp [Done, put]
      · simp [Done, put, h0, h1, start]
  · rw [test_ok hw b wf _ hxb, test_cells hw (by simpa using wf.len) hxb]
    have h1 := bit_effect hw b.blocks y (by rw [← hsame]; exact hlx) x.bit
    have h2 : y.effect (bitAt b.blocks) x.bit = bitAt b.blocks x.bit := by cases y <;> simp_all [BitOp.effect, BitOp.bit]
    rw [h2, ey] at h1
    have h3 : apply b.blocks (.update (x.bit / w) gy : Op (BitVec w) Bool) = b.blocks.set (x.bit / w) (gy b.blocks[x.bit / w]) := by
      simp only [apply]
      apply List.ext_getElem?
      intro k
      rw [List.getElem?_modify, List.getElem?_set]
      by_cases h : x.bit / w = k
      · subst h; simp [hlx]
      · simp [h]
    rw [h3] at h1
    rw [h1]

/-- The accesses of `Set` are those of the function of the model of `Bitset`. -/
theorem set_code (hw : IsBlockWidth w) {b : Bitset w} (wf : WF b) {i : Nat} (hi : i < b.bitCount) (v : Bool) :
    ∃ σ, run (start b.blocks (fun t => if t = 0 then [(BitOp.set i v).code w] else [])) [0, 0] = .ok σ ∧ set b i v = .ok ⟨σ.cells, b.bitCount⟩ := by
  have hidx : i / w < b.blocks.length := by rw [wf.len]; exact div_lt_nb hw.pos hi
  have hmod := Nat.mod_lt i hw.pos
  refine ⟨_, by simp only [run, step, start, BitOp.code, put, if_true, getBlockIndex, rd_ok hidx, wr_ok hidx, ok_bind]; rfl, ?_⟩
  simp only [Verif.Bitset.set, hi, decide_true, assert_true, ok_bind, getBlockIndex, mask, getBitIndex_eq hw, rd_ok hidx, shl_ok _ hmod, wr_ok hidx, pure_ok]

/-! ### Examples -/

/-- Different elements of a vector. -/
example : ElemsApart (fun t => if t = 0 then [ElemOp.assign 0 5, .read 0, .read 2] else if t = 1 then [.assign 1 7, .read 2] else []) := by
  intro t u hne x hx y hy
  by_cases h0 : t = 0 <;> by_cases h1 : t = 1 <;> by_cases g0 : u = 0 <;> by_cases g1 : u = 1 <;>
    simp_all <;> casesm* _ ∨ _ <;> subst_vars <;> simp [ElemOp.writes, ElemOp.index]

/-- Two bits of one block of a bitset of ten bits. -/
example : (BitOp.set 3 true).writes = true ∧ (BitOp.flip 5).writes = true ∧ (BitOp.set 3 true).bit ≠ (BitOp.flip 5).bit ∧ (BitOp.set 3 true).bit / 8 = (BitOp.flip 5).bit / 8 := by decide

/-- Two threads on the bits of two blocks of eight bits. -/
example : BlocksApart 8 (fun t => if t = 0 then [.set 3 true, .test 5, .flip 3] else if t = 1 then [.flip 9, .test 9] else []) := by
  intro t u hne x hx y hy
  by_cases h0 : t = 0 <;> by_cases h1 : t = 1 <;> by_cases g0 : u = 0 <;> by_cases g1 : u = 1 <;>
    simp_all <;> casesm* _ ∨ _ <;> subst_vars <;> simp [BitOp.writes, BitOp.bit]

end Verif.Threads
