import Verif.MemoryPool.ModelThreads
import Verif.MemoryPool.Props

/-!
# C161: threads that use one pool
-/

namespace Verif.MemoryPool
namespace Threads
open Verif.Cpp Verif.Bitset

variable {α : Type}

/-! ## Specification -/

/-- The location that the thread accesses with its next step, and whether it writes. -/
def Thread.next (th : Thread α) : Option (Loc × Bool) :=
  match th.code with
  | [] => none
  | .load l _ :: _ => some (l, false)
  | .store l _ :: _ => some (l, true)

/-- Two threads are about to access one location, one of them to write: a data race, undefined behaviour in C++. -/
def Race (σ : St α) (t u : Nat) : Prop := t ≠ u ∧ ∃ l b, (σ.threads t).next = some (l, true) ∧ (σ.threads u).next = some (l, b)

/-- The thread has done everything. -/
def Done (σ : St α) (t : Nat) : Prop := (σ.threads t).code = []

namespace Call

def index : Call α → Nat
  | .free i => i
  | .assign i _ => i
  | .read i => i

def frees : Call α → Bool
  | .free _ => true
  | _ => false

def writes : Call α → Bool
  | .read _ => false
  | _ => true

/-- The entries after a call. -/
def after (a : Abs α) : Call α → Abs α
  | .free i => a.set i none
  | .assign i v => a.set i (some (some v))
  | .read _ => a

/-- The call in the model of the pool, without other threads; what it reads. -/
def alone (S : Nat) (p : Pool α) : Call α → M (Pool α × List α)
  | .free i => do
    let p ← MemoryPool.free S p i
    pure (p, [])
  | .assign i v => do
    let p ← assignAt S p i v
    pure (p, [])
  | .read i => do
    let v ← readAt S p i
    pure (p, [v])

end Call

/-- Calls one after another, without other threads. -/
def allAlone (S : Nat) : Pool α → List (Call α) → M (Pool α × List α)
  | p, [] => pure (p, [])
  | p, c :: cs => do
    let (p, l) ← c.alone S p
    let (p, l') ← allAlone S p cs
    pure (p, l ++ l')

/-- The entries after the calls. -/
def afterAll (a : Abs α) (cs : List (Call α)) : Abs α := cs.foldl Call.after a

/-- Every call is for an entry with an object, and the objects that the calls read are `l`. -/
inductive Legal : Abs α → List (Call α) → List α → Prop
  | nil (a : Abs α) : Legal a [] []
  | free {a : Abs α} {i : Nat} {v : α} {cs : List (Call α)} {l : List α} (h : a.entries i = some (some v)) (hr : Legal (a.set i none) cs l) : Legal a (.free i :: cs) l
  | assign {a : Abs α} {i : Nat} {v w : α} {cs : List (Call α)} {l : List α} (h : a.entries i = some (some v)) (hr : Legal (a.set i (some (some w))) cs l) : Legal a (.assign i w :: cs) l
  | read {a : Abs α} {i : Nat} {v : α} {cs : List (Call α)} {l : List α} (h : a.entries i = some (some v)) (hr : Legal a cs l) : Legal a (.read i :: cs) (v :: l)

/-- No thread uses an entry that another thread frees or assigns to; no two threads free entries of one block; no thread frees an entry whose flags are in the same word as those of an
entry that another thread uses. -/
def Apart (bs : Nat) (calls : Nat → List (Call α)) : Prop :=
  ∀ t u, t ≠ u → ∀ x ∈ calls t, ∀ y ∈ calls u,
    (x.writes = true → x.index ≠ y.index) ∧ (x.frees = true → x.index / bs = y.index / bs → y.frees = false ∧ x.index % bs / 64 ≠ y.index % bs / 64)

/-! ## Proofs: accesses -/

private abbrev Mem (α : Type) := Loc → Option (Val α)

private def loc : Access α → Loc
  | .load l _ => l
  | .store l _ => l

private def stores : Access α → Bool
  | .load _ _ => false
  | .store _ _ => true

private def seq : List (Access α) → Mem α → Regs α → M (Mem α × Regs α)
  | [], m, r => .ok (m, r)
  | x :: xs, m, r => do
    let (m, r) ← x.run m r
    seq xs m r

private theorem seq_append (xs ys : List (Access α)) : ∀ (m : Mem α) (r : Regs α), seq (xs ++ ys) m r = (do let (m, r) ← seq xs m r; seq ys m r) := by
  induction xs with
  | nil => intro m r; rfl
  | cons x xs ih =>
    intro m r
    simp only [List.cons_append, seq]
    cases x.run m r with
    | error e => rfl
    | ok q => exact ih q.1 q.2

/-- An access depends on its location only, and changes it only. -/
private theorem run_frame {x : Access α} {m n : Mem α} {r : Regs α} {m' : Mem α} {r' : Regs α} (h : x.run m r = .ok (m', r')) (hl : n (loc x) = m (loc x)) :
    ∃ n', x.run n r = .ok (n', r') ∧ n' (loc x) = m' (loc x) ∧ (∀ l, (stores x = true → l ≠ loc x) → n' l = n l) ∧ (∀ l, (stores x = true → l ≠ loc x) → m' l = m l) := by
  cases x with
  | load l f =>
    simp only [loc] at hl
    simp only [Access.run] at h ⊢
    rw [hl]
    cases hm : m l with
    | none => rw [hm] at h; cases h
    | some v =>
      rw [hm] at h
      simp only at h ⊢
      cases hf : f v r with
      | error e => rw [hf] at h; cases h
      | ok q =>
        rw [hf] at h
        cases h
        exact ⟨n, rfl, hl, fun _ _ => rfl, fun _ _ => rfl⟩
  | store l g =>
    simp only [loc] at hl
    simp only [Access.run] at h ⊢
    rw [hl]
    cases hm : m l with
    | none => rw [hm] at h; cases h
    | some v =>
      rw [hm] at h
      simp only at h ⊢
      cases hg : g v r with
      | error e => rw [hg] at h; cases h
      | ok q =>
        rw [hg] at h
        cases h
        refine ⟨put n l (some q), rfl, ?_, fun k hk => ?_, fun k hk => ?_⟩
        · simp [put, loc]
        · have := hk rfl; simp only [loc] at this; simp [put, this]
        · have := hk rfl; simp only [loc] at this; simp [put, this]

/-- So do sequences of accesses. -/
private theorem seq_frame (xs : List (Access α)) : ∀ {m n : Mem α} {r : Regs α} {m' : Mem α} {r' : Regs α} (L : Loc → Prop), (∀ x ∈ xs, L (loc x)) → seq xs m r = .ok (m', r') →
    (∀ l, L l → n l = m l) → ∃ n', seq xs n r = .ok (n', r') ∧ (∀ l, L l → n' l = m' l) ∧ (∀ l, (∀ x ∈ xs, stores x = true → loc x ≠ l) → n' l = n l) := by
  induction xs with
  | nil =>
    intro m n r m' r' L _ h hl
    cases h
    exact ⟨n, rfl, hl, fun _ _ => rfl⟩
  | cons x xs ih =>
    intro m n r m' r' L hL h hl
    simp only [seq] at h ⊢
    cases hx : x.run m r with
    | error e => rw [hx] at h; cases h
    | ok q =>
      rw [hx] at h
      obtain ⟨n1, e1, a1, b1, c1⟩ := run_frame (n := n) hx (hl _ (hL x List.mem_cons_self))
      have hag : ∀ l, L l → n1 l = q.1 l := by
        intro l hl'
        by_cases he : l = loc x
        · rw [he]; exact a1
        · rw [b1 l (fun _ => he), c1 l (fun _ => he)]; exact hl l hl'
      obtain ⟨n2, e2, a2, b2⟩ := ih L (fun y hy => hL y (List.mem_cons_of_mem _ hy)) (m := q.1) (r := q.2) h hag
      refine ⟨n2, by rw [e1]; exact e2, a2, fun l hl' => ?_⟩
      rw [b2 l (fun y hy => hl' y (List.mem_cons_of_mem _ hy)), b1 l (fun hs => (hl' x List.mem_cons_self hs).symm)]

/-! ## Proofs: interleavings -/

private def AccessApart (progs : Nat → List (Access α)) : Prop :=
  ∀ t u, t ≠ u → ∀ x ∈ progs t, ∀ y ∈ progs u, stores x = true → loc x ≠ loc y

private structure Inv (m0 : Mem α) (r0 : Regs α) (progs pre : Nat → List (Access α)) (mem : Nat → Mem α) (σ : St α) : Prop where
  split : ∀ t, progs t = pre t ++ (σ.threads t).code
  seq : ∀ t, seq (pre t) m0 r0 = .ok (mem t, (σ.threads t).regs)
  used : ∀ t, ∀ x ∈ progs t, σ.mem (loc x) = mem t (loc x)
  unused : ∀ l, (∀ t, ∀ x ∈ progs t, stores x = true → loc x ≠ l) → σ.mem l = m0 l

private theorem put_same {γ β : Type} [DecidableEq γ] (f : γ → β) (t : γ) (x : β) : put f t x t = x := if_pos rfl
private theorem put_other {γ β : Type} [DecidableEq γ] (f : γ → β) {t u : γ} (x : β) (h : u ≠ t) : put f t x u = f u := if_neg h

private theorem step_inv {m0 : Mem α} {r0 : Regs α} {progs pre : Nat → List (Access α)} {mem : Nat → Mem α} {σ : St α} (ha : AccessApart progs)
    (hok : ∀ t, ∃ q, seq (progs t) m0 r0 = .ok q) (hi : Inv m0 r0 progs pre mem σ) (t : Nat) :
    ∃ σ' pre' mem', step σ t = .ok σ' ∧ Inv m0 r0 progs pre' mem' σ' ∧ (∀ u, u ≠ t → σ'.threads u = σ.threads u) ∧
      (σ'.threads t).code.length = (σ.threads t).code.length - 1 := by
  unfold step
  cases hc : (σ.threads t).code with
  | nil => exact ⟨σ, pre, mem, rfl, hi, fun _ _ => rfl, by simp [hc]⟩
  | cons x rest =>
    have hmem : x ∈ progs t := by rw [hi.split t, hc]; simp
    obtain ⟨q, hq⟩ := hok t
    rw [hi.split t, hc, seq_append, hi.seq t] at hq
    simp only [ok_bind, seq] at hq
    cases hx : x.run (mem t) (σ.threads t).regs with
    | error e => rw [hx] at hq; cases hq
    | ok z =>
      obtain ⟨n', e1, a1, b1, c1⟩ := run_frame (n := σ.mem) hx (hi.used t x hmem)
      refine ⟨⟨n', put σ.threads t ⟨rest, z.2⟩⟩, put pre t (pre t ++ [x]), put mem t z.1, by simp only [e1, ok_bind], ⟨?_, ?_, ?_, ?_⟩, fun u hu => put_other _ _ hu, by simp [put_same]⟩
      · intro u
        by_cases hu : u = t
        · subst hu; simp only [put_same]; rw [hi.split u, hc]; simp
        · simp only [put_other _ _ hu]; exact hi.split u
      · intro u
        by_cases hu : u = t
        · subst hu
          simp only [put_same]
          rw [seq_append, hi.seq u]
          simp only [ok_bind, seq, hx]
        · simp only [put_other _ _ hu]; exact hi.seq u
      · intro u y hy
        by_cases hu : u = t
        · subst hu
          simp only [put_same]
          by_cases he : loc y = loc x
          · rw [he]; exact a1
          · rw [b1 _ (fun _ => he), c1 _ (fun _ => he)]; exact hi.used u y hy
        · simp only [put_other _ _ hu]
          rw [b1 _ (fun hs => (ha t u (fun h => hu h.symm) x hmem y hy hs).symm)]
          exact hi.used u y hy
      · intro l hl
        show n' l = m0 l
        rw [b1 _ (fun hs => (hl t x hmem hs).symm)]
        exact hi.unused l hl

private theorem run_inv {m0 : Mem α} {r0 : Regs α} {progs : Nat → List (Access α)} (ha : AccessApart progs) (hok : ∀ t, ∃ q, seq (progs t) m0 r0 = .ok q) (ts : List Nat) :
    ∀ {pre : Nat → List (Access α)} {mem : Nat → Mem α} {σ : St α}, Inv m0 r0 progs pre mem σ →
    ∃ σ' pre' mem', run σ ts = .ok σ' ∧ Inv m0 r0 progs pre' mem' σ' ∧ ∀ t, (σ'.threads t).code.length = (σ.threads t).code.length - ts.count t := by
  induction ts with
  | nil => intro pre mem σ h; exact ⟨σ, pre, mem, rfl, h, by simp⟩
  | cons t ts ih =>
    intro pre mem σ h
    obtain ⟨σ1, pre1, mem1, e1, h1, hne, hr⟩ := step_inv ha hok h t
    obtain ⟨σ2, pre2, mem2, e2, h2, hr2⟩ := ih h1
    refine ⟨σ2, pre2, mem2, by simp only [run, e1, ok_bind, e2], h2, fun u => ?_⟩
    rw [hr2 u]
    by_cases hu : u = t
    · subst hu; rw [hr, List.count_cons_self]; omega
    · rw [hne u hu, List.count_cons_of_ne (fun h => hu h.symm)]

private theorem no_race {m0 : Mem α} {r0 : Regs α} {progs pre : Nat → List (Access α)} {mem : Nat → Mem α} {σ : St α} (ha : AccessApart progs) (hi : Inv m0 r0 progs pre mem σ)
    (t u : Nat) : ¬ Race σ t u := by
  rintro ⟨hne, l, b, h1, h2⟩
  have key : ∀ v (y : Loc × Bool), (σ.threads v).next = some y → ∃ x ∈ progs v, loc x = y.1 ∧ stores x = y.2 := by
    intro v y hy
    unfold Thread.next at hy
    cases hc : (σ.threads v).code with
    | nil => simp [hc] at hy
    | cons x rest =>
      refine ⟨x, by rw [hi.split v, hc]; simp, ?_⟩
      rw [hc] at hy
      cases x <;> simp only [Option.some.injEq] at hy <;> subst hy <;> exact ⟨rfl, rfl⟩
  obtain ⟨x, hx, e1, e2⟩ := key t _ h1
  obtain ⟨y, hy, e3, -⟩ := key u _ h2
  exact ha t u hne x hx y hy e2 (by rw [e1, e3])

/-! ## Proofs: calls -/

private def wordAfter (x : BitVec 64) (k : Nat) (v : Bool) : BitVec 64 := (x &&& ~~~(mask k)) ||| ((-(if v then 1#64 else 0#64)) &&& mask k)

private theorem set_form {b : Bitset 64} {n : Nat} {f : Nat → Bool} (h : Has b n f) {k : Nat} (hk : k < n) (v : Bool) :
    ∃ x, b.blocks[k / 64]? = some x ∧ Verif.Bitset.set b k v = .ok ⟨b.blocks.set (k / 64) (wordAfter x k v), b.bitCount⟩ ∧ ((x &&& mask k) != 0#64) = f k := by
  have hidx : k / 64 < b.blocks.length := by rw [h.len]; exact div_lt_nb w64.pos hk
  have hm := Nat.mod_lt k (w64.pos)
  have hk' : k < b.bitCount := by rw [h.size]; exact hk
  refine ⟨b.blocks[k / 64], List.getElem?_eq_getElem hidx, ?_, ?_⟩
  · simp only [Verif.Bitset.set, hk', decide_true, assert_true, ok_bind, getBlockIndex, mask, getBitIndex_eq w64, rd_ok hidx, shl_ok _ hm, wr_ok hidx, pure_ok, wordAfter]
  · have := Has.test h hk
    simp only [Verif.Bitset.test, hk', decide_true, assert_true, ok_bind, getBlockIndex, getBitIndex_eq w64, rd_ok hidx, shl_ok _ hm, pure_ok] at this
    injection this with this
    simpa only [mask, getBitIndex_eq w64] using this

private theorem getElem?_set_eq {β : Type} {l : List β} {i : Nat} {x y : β} (h : l[i]? = some x) : (l.set i y)[i]? = some y := by
  obtain ⟨hi, -⟩ := List.getElem?_eq_some_iff.1 h
  rw [List.getElem?_set_self hi]

private structure At (bs S : Nat) (p : Pool α) (a : Abs α) (i : Nat) (v : α) (B : Block α) (x y : BitVec 64) : Prop where
  block : p.blocks[i / bs]? = some B
  object : B.memory[i % bs]? = some (some v)
  count : 0 < B.count
  free : B.freeEntries.blocks[i % bs / 64]? = some x
  occupied : B.occupiedEntries.blocks[i % bs / 64]? = some y
  test : ((y &&& mask (i % bs)) != 0#64) = true
  setFree : Verif.Bitset.set B.freeEntries (i % bs) true = .ok ⟨B.freeEntries.blocks.set (i % bs / 64) (wordAfter x (i % bs) true), B.freeEntries.bitCount⟩
  setOccupied : Verif.Bitset.set B.occupiedEntries (i % bs) false = .ok ⟨B.occupiedEntries.blocks.set (i % bs / 64) (wordAfter y (i % bs) false), B.occupiedEntries.bitCount⟩

private theorem at_entry {bs S : Nat} {p : Pool α} {a : Abs α} (h : Repr bs S p a) (hbs : 0 < bs) {i : Nat} {v : α} (hi : a.entries i = some (some v)) :
    ∃ B x y, At bs S p a i v B x y := by
  have hlive : a.isLive i = true := by simp [Abs.isLive, hi]
  have hk : i / bs < p.blocks.length := by rw [h.len]; exact div_lt_blocks (h.bound i hlive)
  have hl := Nat.mod_lt i hbs
  obtain ⟨B, base, g1, g2, g3, g4⟩ := h.get hk
  have hsp := index_split bs i
  obtain ⟨x, x1, x2, -⟩ := set_form g4.free hl true
  obtain ⟨y, y1, y2, y3⟩ := set_form g4.occupied hl false
  refine ⟨B, x, y, g1, ?_, ?_, x1, y1, ?_, x2, y2⟩
  · rw [g4.memory, Slots.mk_get hl]; simp only [hsp, hi]; rfl
  · rw [g4.count, List.countP_pos_iff]
    exact ⟨i % bs, by simpa using hl, by simp only [hsp, hi]; rfl⟩
  · rw [y3]; simp only [hsp, hi]; rfl

private def freed (bs : Nat) (p : Pool α) (i : Nat) (B : Block α) (x y : BitVec 64) : Pool α :=
  ⟨p.blockSize, p.blocks.set (i / bs) ⟨B.count - 1, B.base, B.memory.set (i % bs) none, ⟨B.freeEntries.blocks.set (i % bs / 64) (wordAfter x (i % bs) true), B.freeEntries.bitCount⟩,
    ⟨B.occupiedEntries.blocks.set (i % bs / 64) (wordAfter y (i % bs) false), B.occupiedEntries.bitCount⟩⟩⟩

private theorem free_form {bs S : Nat} {p : Pool α} {a : Abs α} (h : Repr bs S p a) (hbs : 0 < bs) {i : Nat} {v : α} (hi : a.entries i = some (some v)) {B : Block α} {x y : BitVec 64}
    (hat : At bs S p a i v B x y) : MemoryPool.free S p i = .ok (freed bs p i B x y) := by
  have hlive : a.isLive i = true := by simp [Abs.isLive, hi]
  have h0 : (bs != 0) = true := by simp; omega
  have hl := Nat.mod_lt i hbs
  obtain ⟨hb, hB⟩ := List.getElem?_eq_some_iff.1 hat.block
  have hb' : ∀ X : Block α, i / bs < (p.blocks.set (i / bs) X).length := by intro X; simpa using hb
  simp only [MemoryPool.free, h0, guardUB_true, ok_bind, h.size, pointer_repr h hl, index_split, hlive, if_true, onSlot, rd, hat.block, Slots.destroy, hat.object, wr_ok hb, pure_ok, release,
    getElem?_set_eq hat.block, hat.count, gt_iff_lt, decide_true, assert_true, hat.setFree, Verif.Bitset.reset, hat.setOccupied, wr_ok (hb' _), List.set_set, freed]

private theorem contents_block {p : Pool α} {b : Nat} {B : Block α} (h : p.blocks[b]? = some B) : contents p (.count b) = some (.count B.count) ∧
    (∀ k, contents p (.free b k) = B.freeEntries.blocks[k]?.map .word) ∧ (∀ k, contents p (.occupied b k) = B.occupiedEntries.blocks[k]?.map .word) ∧
    (∀ l, contents p (.entry b l) = B.memory[l]?.map .entry) := by
  simp [contents, h]

private theorem contents_other {p : Pool α} {n b : Nat} {B : Block α} {c : Nat} (h : c ≠ b) : contents ⟨n, p.blocks.set b B⟩ (.count c) = contents p (.count c) ∧
    (∀ k, contents ⟨n, p.blocks.set b B⟩ (.free c k) = contents p (.free c k)) ∧ (∀ k, contents ⟨n, p.blocks.set b B⟩ (.occupied c k) = contents p (.occupied c k)) ∧
    (∀ l, contents ⟨n, p.blocks.set b B⟩ (.entry c l) = contents p (.entry c l)) := by
  simp [contents, List.getElem?_set_ne (Ne.symm h)]

private theorem map_set {β γ : Type} {l : List β} {i : Nat} {x y : β} (h : l[i]? = some x) (f : β → γ) (k : Nat) : (l.set i y)[k]?.map f = if k = i then some (f y) else l[k]?.map f := by
  obtain ⟨hi, -⟩ := List.getElem?_eq_some_iff.1 h
  by_cases hk : k = i
  · subst hk; rw [List.getElem?_set_self hi, if_pos rfl]; rfl
  · rw [List.getElem?_set_ne (Ne.symm hk), if_neg hk]

private theorem free_seq {bs S : Nat} {p : Pool α} {a : Abs α} {i : Nat} {v : α} {B : Block α} {x y : BitVec 64} (hat : At bs S p a i v B x y) (r : Regs α) :
    seq (Call.code bs (.free i)) (contents p) r = .ok (contents (freed bs p i B x y), { r with n := B.count, word := y }) := by
  obtain ⟨c1, c2, c3, c4⟩ := contents_block hat.block
  have hne : B.count ≠ 0 := by have := hat.count; omega
  simp only [Call.code, seq, testOccupied, destroyEntry, checkCount, loadCount, storeCount, loadWord, storeWord, Access.run, getBlockIndex, c3, hat.occupied, Option.map_some, hat.test, assert_true, ok_bind,
    pure_ok, c4, hat.object, put, reduceCtorEq, if_false, c1, hat.count, gt_iff_lt, decide_true, c2, hat.free, hne]
  congr 2
  obtain ⟨hb, hB⟩ := List.getElem?_eq_some_iff.1 hat.block
  have hset : (freed bs p i B x y).blocks[i / bs]? = some ⟨B.count - 1, B.base, B.memory.set (i % bs) none,
      ⟨B.freeEntries.blocks.set (i % bs / 64) (wordAfter x (i % bs) true), B.freeEntries.bitCount⟩,
      ⟨B.occupiedEntries.blocks.set (i % bs / 64) (wordAfter y (i % bs) false), B.occupiedEntries.bitCount⟩⟩ := by rw [freed, List.getElem?_set_self hb]
  obtain ⟨d1, d2, d3, d4⟩ := contents_block hset
  funext l
  by_cases hl : ∃ k, l = .count k ∧ k ≠ i / bs ∨ (∃ j, l = .free k j) ∧ k ≠ i / bs ∨ (∃ j, l = .occupied k j) ∧ k ≠ i / bs ∨ (∃ j, l = .entry k j) ∧ k ≠ i / bs
  · obtain ⟨k, hl⟩ := hl
    have hk : k ≠ i / bs := by rcases hl with ⟨-, h⟩ | ⟨-, h⟩ | ⟨-, h⟩ | ⟨-, h⟩ <;> exact h
    obtain ⟨e1, e2, e3, e4⟩ := contents_other (p := p) (n := p.blockSize) (B := ⟨B.count - 1, B.base, B.memory.set (i % bs) none,
      ⟨B.freeEntries.blocks.set (i % bs / 64) (wordAfter x (i % bs) true), B.freeEntries.bitCount⟩,
      ⟨B.occupiedEntries.blocks.set (i % bs / 64) (wordAfter y (i % bs) false), B.occupiedEntries.bitCount⟩⟩) hk
    rcases hl with ⟨rfl, -⟩ | ⟨⟨j, rfl⟩, -⟩ | ⟨⟨j, rfl⟩, -⟩ | ⟨⟨j, rfl⟩, -⟩
    · simp only [freed, e1]; simp [put, hk]
    · simp only [freed, e2]; simp [put, hk]
    · simp only [freed, e3]; simp [put, hk]
    · simp only [freed, e4]; simp [put, hk]
  · cases l with
    | count k =>
      have hk : k = i / bs := by by_contra hk; exact hl ⟨k, .inl ⟨rfl, hk⟩⟩
      subst hk
      rw [d1]; simp [put]
    | free k j =>
      have hk : k = i / bs := by by_contra hk; exact hl ⟨k, .inr (.inl ⟨⟨j, rfl⟩, hk⟩)⟩
      subst hk
      rw [d2, map_set hat.free]
      by_cases hj : j = i % bs / 64
      · subst hj; simp [put, wordAfter]
      · simp [put, hj, c2]
    | occupied k j =>
      have hk : k = i / bs := by by_contra hk; exact hl ⟨k, .inr (.inr (.inl ⟨⟨j, rfl⟩, hk⟩))⟩
      subst hk
      rw [d3, map_set hat.occupied]
      by_cases hj : j = i % bs / 64
      · subst hj; simp [put, wordAfter]
      · simp [put, hj, c3]
    | entry k j =>
      have hk : k = i / bs := by by_contra hk; exact hl ⟨k, .inr (.inr (.inr ⟨⟨j, rfl⟩, hk⟩))⟩
      subst hk
      rw [d4, map_set hat.object]
      by_cases hj : j = i % bs
      · subst hj; simp [put]
      · simp [put, hj, c4]

private def assigned (bs : Nat) (p : Pool α) (i : Nat) (B : Block α) (w : α) : Pool α :=
  ⟨p.blockSize, p.blocks.set (i / bs) ⟨B.count, B.base, B.memory.set (i % bs) (some w), B.freeEntries, B.occupiedEntries⟩⟩

private theorem assign_form {bs S : Nat} {p : Pool α} {a : Abs α} (h : Repr bs S p a) (hbs : 0 < bs) {i : Nat} {v : α} (hi : a.entries i = some (some v)) {B : Block α} {x y : BitVec 64}
    (hat : At bs S p a i v B x y) (w : α) : assignAt S p i w = .ok (assigned bs p i B w) := by
  have hlive : a.isLive i = true := by simp [Abs.isLive, hi]
  obtain ⟨hb, hB⟩ := List.getElem?_eq_some_iff.1 hat.block
  simp only [assignAt, retrieve_repr h hbs, hlive, if_true, ok_bind, h.size, onSlot, rd, hat.block, Slots.assign, hat.object, wr_ok hb, pure_ok, assigned]

private theorem assign_seq {bs S : Nat} {p : Pool α} {a : Abs α} {i : Nat} {v : α} {B : Block α} {x y : BitVec 64} (hat : At bs S p a i v B x y) (w : α) (r : Regs α) :
    seq (Call.code bs (.assign i w)) (contents p) r = .ok (contents (assigned bs p i B w), r) := by
  obtain ⟨c1, c2, c3, c4⟩ := contents_block hat.block
  simp only [Call.code, seq, testOccupied, assignEntry, Access.run, getBlockIndex, c3, hat.occupied, Option.map_some, hat.test, assert_true, ok_bind, pure_ok, c4, hat.object]
  congr 2
  obtain ⟨hb, hB⟩ := List.getElem?_eq_some_iff.1 hat.block
  have hset : (assigned bs p i B w).blocks[i / bs]? = some ⟨B.count, B.base, B.memory.set (i % bs) (some w), B.freeEntries, B.occupiedEntries⟩ := by rw [assigned, List.getElem?_set_self hb]
  obtain ⟨d1, d2, d3, d4⟩ := contents_block hset
  funext l
  have other := fun (k : Nat) (hk : k ≠ i / bs) => contents_other (p := p) (n := p.blockSize) (B := ⟨B.count, B.base, B.memory.set (i % bs) (some w), B.freeEntries, B.occupiedEntries⟩) hk
  cases l with
  | count k =>
    by_cases hk : k = i / bs
    · subst hk; rw [d1]; simp [put, c1]
    · simp only [assigned, (other k hk).1]; simp [put]
  | free k j =>
    by_cases hk : k = i / bs
    · subst hk; rw [d2]; simp [put, c2]
    · simp only [assigned, (other k hk).2.1]; simp [put]
  | occupied k j =>
    by_cases hk : k = i / bs
    · subst hk; rw [d3]; simp [put, c3]
    · simp only [assigned, (other k hk).2.2.1]; simp [put]
  | entry k j =>
    by_cases hk : k = i / bs
    · subst hk
      rw [d4, map_set hat.object]
      by_cases hj : j = i % bs
      · subst hj; simp [put]
      · simp [put, hj, c4]
    · simp only [assigned, (other k hk).2.2.2]; simp [put, hk]

/-- The accesses of a thread that is alone are those of the calls. -/
private theorem calls_seq {bs S : Nat} (hbs : 0 < bs) {a : Abs α} {cs : List (Call α)} {l : List α} (hok : Legal a cs l) : ∀ {p : Pool α} (r : Regs α), Repr bs S p a →
    ∃ p' r', allAlone S p cs = .ok (p', l) ∧ Repr bs S p' (afterAll a cs) ∧ seq (cs.flatMap (Call.code bs)) (contents p) r = .ok (contents p', r') ∧ r'.answers = r.answers ++ l := by
  induction hok with
  | nil a => intro p r h; exact ⟨p, r, rfl, h, rfl, by simp⟩
  | @free a i v cs l hi _ ih =>
    intro p r h
    obtain ⟨B, x, y, hat⟩ := at_entry h hbs hi
    obtain ⟨q, e, hq⟩ := free_repr h hbs hi
    have e' := free_form h hbs hi hat
    rw [e] at e'
    injection e' with e'
    obtain ⟨p', r', h1, h2, h3, h4⟩ := ih { r with n := B.count, word := y } hq
    refine ⟨p', r', ?_, h2, ?_, h4⟩
    · simp only [allAlone, Call.alone, e, ok_bind, pure_ok, h1, List.nil_append]
    · rw [List.flatMap_cons, seq_append, free_seq hat r, ← e']
      exact h3
  | @assign a i v w cs l hi _ ih =>
    intro p r h
    obtain ⟨B, x, y, hat⟩ := at_entry h hbs hi
    obtain ⟨q, e, hq⟩ := assignAt_repr h hbs hi w
    have e' := assign_form h hbs hi hat w
    rw [e] at e'
    injection e' with e'
    obtain ⟨p', r', h1, h2, h3, h4⟩ := ih r hq
    refine ⟨p', r', ?_, h2, ?_, h4⟩
    · simp only [allAlone, Call.alone, e, ok_bind, pure_ok, h1, List.nil_append]
    · rw [List.flatMap_cons, seq_append, assign_seq hat w r, ← e']
      exact h3
  | @read a i v cs l hi _ ih =>
    intro p r h
    obtain ⟨B, x, y, hat⟩ := at_entry h hbs hi
    obtain ⟨p', r', h1, h2, h3, h4⟩ := ih { r with answers := r.answers ++ [v] } h
    refine ⟨p', r', ?_, h2, ?_, by rw [h4]; simp⟩
    · simp only [allAlone, Call.alone, readAt_repr h hbs hi, ok_bind, pure_ok, h1, List.singleton_append]
    · rw [List.flatMap_cons, seq_append]
      obtain ⟨c1, c2, c3, c4⟩ := contents_block hat.block
      simp only [Call.code, seq, testOccupied, readEntry, Access.run, getBlockIndex, c3, hat.occupied, Option.map_some, hat.test, assert_true, ok_bind, pure_ok, c4, hat.object]
      exact h3

private theorem code_loc {bs : Nat} {c : Call α} {x : Access α} (h : x ∈ c.code bs) :
    loc x = .occupied (c.index / bs) (c.index % bs / 64) ∧ (stores x = true → c.frees = true) ∨ loc x = .entry (c.index / bs) (c.index % bs) ∧ (stores x = true → c.writes = true) ∨
    loc x = .count (c.index / bs) ∧ c.frees = true ∨ loc x = .free (c.index / bs) (c.index % bs / 64) ∧ c.frees = true := by
  cases c with
  | free i =>
    simp only [Call.code, List.mem_cons, List.not_mem_nil, or_false] at h
    rcases h with rfl | rfl | rfl | rfl | rfl | rfl | rfl | rfl | rfl <;>
      simp [loc, stores, testOccupied, destroyEntry, checkCount, loadCount, storeCount, loadWord, storeWord, Call.index, Call.frees, Call.writes, getBlockIndex]
  | assign i v =>
    simp only [Call.code, List.mem_cons, List.not_mem_nil, or_false] at h
    rcases h with rfl | rfl <;> simp [loc, stores, testOccupied, assignEntry, Call.index, Call.frees, Call.writes, getBlockIndex]
  | read i =>
    simp only [Call.code, List.mem_cons, List.not_mem_nil, or_false] at h
    rcases h with rfl | rfl <;> simp [loc, stores, testOccupied, readEntry, Call.index, Call.frees, Call.writes, getBlockIndex]

private theorem access_apart {bs : Nat} {calls : Nat → List (Call α)} (ha : Apart bs calls) : AccessApart (fun t => (calls t).flatMap (Call.code bs)) := by
  intro t u hne x hx y hy hs he
  obtain ⟨c, hc, hx⟩ := List.mem_flatMap.1 hx
  obtain ⟨d, hd, hy⟩ := List.mem_flatMap.1 hy
  obtain ⟨h1, h2⟩ := ha t u hne c hc d hd
  rcases code_loc hx with ⟨ex, fx⟩ | ⟨ex, fx⟩ | ⟨ex, fx⟩ | ⟨ex, fx⟩ <;> rcases code_loc hy with ⟨ey, fy⟩ | ⟨ey, fy⟩ | ⟨ey, fy⟩ | ⟨ey, fy⟩ <;> rw [ex, ey] at he <;>
    simp only [Loc.occupied.injEq, Loc.entry.injEq, Loc.count.injEq, Loc.free.injEq, reduceCtorEq] at he
  · exact (h2 (fx hs) he.1).2 he.2
  · apply h1 (fx hs)
    rw [← index_split bs c.index, ← index_split bs d.index, he.1, he.2]
  · rw [(h2 fx he).1] at fy; cases fy
  · rw [(h2 fx he.1).1] at fy; cases fy

private theorem after_entry (a : Abs α) (c : Call α) (j : Nat) (h : c.writes = true → c.index ≠ j) : (c.after a).entries j = a.entries j := by
  cases c with
  | read i => rfl
  | free i => have := h rfl; simp only [Call.index] at this; simp [Call.after, Abs.set, Ne.symm this]
  | assign i v => have := h rfl; simp only [Call.index] at this; simp [Call.after, Abs.set, Ne.symm this]

private theorem afterAll_entry (cs : List (Call α)) : ∀ (a : Abs α) (j : Nat), (∀ c ∈ cs, c.writes = true → c.index ≠ j) → (afterAll a cs).entries j = a.entries j := by
  induction cs with
  | nil => intros; rfl
  | cons c cs ih =>
    intro a j h
    show (afterAll (c.after a) cs).entries j = _
    rw [ih _ j (fun d hd => h d (List.mem_cons_of_mem _ hd)), after_entry a c j (h c List.mem_cons_self)]

private theorem Legal.congr {a : Abs α} {cs : List (Call α)} {l : List α} (h : Legal a cs l) : ∀ {b : Abs α}, (∀ c ∈ cs, b.entries c.index = a.entries c.index) → Legal b cs l := by
  induction h with
  | nil a => intro b _; exact .nil b
  | @free a i v cs l hi _ ih =>
    intro b hb
    refine .free (v := v) (by rw [← hi]; exact hb _ List.mem_cons_self) (ih (fun c hc => ?_))
    simp only [Abs.set]
    rw [hb c (List.mem_cons_of_mem _ hc)]
  | @assign a i v w cs l hi _ ih =>
    intro b hb
    refine .assign (v := v) (by rw [← hi]; exact hb _ List.mem_cons_self) (ih (fun c hc => ?_))
    simp only [Abs.set]
    rw [hb c (List.mem_cons_of_mem _ hc)]
  | @read a i v cs l hi _ ih =>
    intro b hb
    exact .read (v := v) (by rw [← hi]; exact hb _ List.mem_cons_self) (ih (fun c hc => hb c (List.mem_cons_of_mem _ hc)))

private theorem allAlone_append (S : Nat) (xs ys : List (Call α)) : ∀ {p q s : Pool α} {l l' : List α}, allAlone S p xs = .ok (q, l) → allAlone S q ys = .ok (s, l') →
    allAlone S p (xs ++ ys) = .ok (s, l ++ l') := by
  induction xs with
  | nil =>
    intro p q s l l' h1 h2
    cases h1
    exact h2
  | cons c xs ih =>
    intro p q s l l' h1 h2
    simp only [allAlone, List.cons_append] at h1 ⊢
    cases hc : c.alone S p with
    | error e => rw [hc] at h1; cases h1
    | ok z =>
      rw [hc] at h1
      simp only [ok_bind] at h1 ⊢
      cases hz : allAlone S z.1 xs with
      | error e => rw [hz] at h1; cases h1
      | ok y =>
        rw [hz] at h1
        cases h1
        rw [ih hz h2]
        simp

private def r0 : Regs α := ⟨0, 0#64, []⟩

/-- The threads one after another. -/
private theorem one_after_another {bs S : Nat} (hbs : 0 < bs) {p : Pool α} {a : Abs α} (h : Repr bs S p a) {calls : Nat → List (Call α)} {reads : Nat → List α}
    (hok : ∀ t, Legal a (calls t) (reads t)) (ha : Apart bs calls) {mem : Nat → Mem α} {regs : Nat → Regs α}
    (hm : ∀ t, seq ((calls t).flatMap (Call.code bs)) (contents p) r0 = .ok (mem t, regs t)) (n : Nat) :
    ∃ q l, allAlone S p ((List.range n).flatMap calls) = .ok (q, l) ∧ Repr bs S q (afterAll a ((List.range n).flatMap calls)) ∧
      (∀ t < n, ∀ x ∈ (calls t).flatMap (Call.code bs), contents q (loc x) = mem t (loc x)) ∧
      (∀ k, (∀ t < n, ∀ x ∈ (calls t).flatMap (Call.code bs), stores x = true → loc x ≠ k) → contents q k = contents p k) := by
  have hap := access_apart ha
  induction n with
  | zero => exact ⟨p, [], rfl, h, fun t ht => absurd ht (by omega), fun _ _ => rfl⟩
  | succ n ih =>
    obtain ⟨q, l, e, hq, hu, hn⟩ := ih
    have hleg : Legal (afterAll a ((List.range n).flatMap calls)) (calls n) (reads n) := by
      refine (hok n).congr (fun c hc => afterAll_entry _ _ _ (fun d hd hw => ?_))
      obtain ⟨t, ht, hd⟩ := List.mem_flatMap.1 hd
      have ht' : t < n := List.mem_range.1 ht
      exact (ha t n (by omega) d hd c hc).1 hw
    obtain ⟨q', r', e1, hq', s1, -⟩ := calls_seq hbs hleg r0 hq
    have hag : ∀ k, (∃ x ∈ (calls n).flatMap (Call.code bs), loc x = k) → contents q k = contents p k := by
      rintro k ⟨x, hx, rfl⟩
      exact hn _ (fun t ht y hy hs => hap t n (by omega) y hy x hx hs)
    obtain ⟨n', s2, f1, f2⟩ := seq_frame _ (n := contents q) (fun k => ∃ x ∈ (calls n).flatMap (Call.code bs), loc x = k) (fun x hx => ⟨x, hx, rfl⟩) (hm n) hag
    rw [s1] at s2
    injection s2 with s2
    injection s2 with s3 s4
    subst s3
    have hr : (List.range (n + 1)).flatMap calls = (List.range n).flatMap calls ++ calls n := by rw [List.range_succ, List.flatMap_append]; simp
    refine ⟨q', l ++ reads n, by rw [hr]; exact allAlone_append S _ _ e e1, by rw [hr]; simpa only [afterAll, List.foldl_append] using hq', fun t ht x hx => ?_, fun k hk => ?_⟩
    · by_cases hte : t = n
      · subst hte; exact f1 _ ⟨x, hx, rfl⟩
      · rw [f2 _ (fun y hy hs => hap n t (fun h => hte h.symm) y hy x hx hs)]
        exact hu t (by omega) x hx
    · rw [f2 _ (fun y hy hs => hk n (by omega) y hy hs)]
      exact hn _ (fun t ht => hk t (by omega))

private theorem code_length (bs : Nat) (cs : List (Call α)) : (cs.flatMap (Call.code bs)).length ≤ 9 * cs.length := by
  induction cs with
  | nil => simp
  | cons c cs ih =>
    have : (c.code bs).length ≤ 9 := by cases c <;> simp [Call.code]
    simp only [List.flatMap_cons, List.length_append, List.length_cons]
    omega

/-! ## Theorems -/

/-- Threads that keep apart never race: whatever the schedule, no call fails and every call of a thread reads what it would read without the other threads; when all are done the pool is the one that the
calls of the threads give one after another.  Missing: threads that free entries of one block, see `C161_count_violated`. -/
theorem C161_apart_partial {bs S : Nat} {p : Pool α} {a : Abs α} (h : Reached bs S p a) {calls : Nat → List (Call α)} {reads : Nat → List α} (hok : ∀ t, Legal a (calls t) (reads t))
    (ha : Apart bs calls) (schedule : List Nat) :
    ∃ σ, run (start p calls) schedule = .ok σ ∧ (∀ t u, ¬ Race σ t u) ∧ (∀ t, 9 * (calls t).length ≤ schedule.count t → Done σ t) ∧
      (∀ t, Done σ t → (σ.threads t).regs.answers = reads t) ∧
      ∀ n, (∀ t, n ≤ t → calls t = []) → (∀ t, Done σ t) →
        ∃ q l, allAlone S p ((List.range n).flatMap calls) = .ok (q, l) ∧ σ.mem = contents q ∧ Shows bs S q (afterAll a ((List.range n).flatMap calls)) := by
  have hbs := h.1
  have hr := h.repr
  have hap := access_apart ha
  have hseq : ∀ t, ∃ p' r', seq ((calls t).flatMap (Call.code bs)) (contents p) r0 = .ok (contents p', r') ∧ r'.answers = reads t := by
    intro t
    obtain ⟨p', r', -, -, h3, h4⟩ := calls_seq hbs (hok t) r0 hr
    exact ⟨p', r', h3, by simpa [r0] using h4⟩
  obtain ⟨σ, pre, mem, e, hi, hlen⟩ := run_inv (m0 := contents p) (r0 := r0) hap (fun t => by obtain ⟨p', r', e, -⟩ := hseq t; exact ⟨_, e⟩) schedule
    (pre := fun _ => []) (mem := fun _ => contents p) (σ := start p calls) ⟨fun t => by simp [start, hr.size], fun _ => rfl, fun _ _ _ => rfl, fun _ _ => rfl⟩
  have hpre : ∀ t, Done σ t → pre t = (calls t).flatMap (Call.code bs) := by
    intro t ht
    have := hi.split t
    rw [ht, List.append_nil] at this
    exact this.symm
  refine ⟨σ, e, no_race hap hi, fun t ht => ?_, fun t ht => ?_, fun n hn hd => ?_⟩
  · have h1 := hlen t
    have h2 := code_length bs (calls t)
    have h3 : ((start p calls).threads t).code.length = ((calls t).flatMap (Call.code bs)).length := by simp only [start, hr.size]
    apply List.eq_nil_of_length_eq_zero
    omega
  · obtain ⟨p', r', e1, e2⟩ := hseq t
    have := hi.seq t
    rw [hpre t ht, e1] at this
    injection this with this
    injection this with _ this
    rw [← this]; exact e2
  · obtain ⟨q, l, e1, hq, hu, hnu⟩ := one_after_another hbs hr hok ha (mem := mem) (regs := fun t => (σ.threads t).regs) (fun t => by rw [← hpre t (hd t)]; exact hi.seq t) n
    refine ⟨q, l, e1, ?_, shows_repr hq hbs⟩
    funext k
    by_cases hk : ∃ t, ∃ x ∈ (calls t).flatMap (Call.code bs), loc x = k
    · obtain ⟨t, x, hx, rfl⟩ := hk
      have ht : t < n := by
        by_contra hlt
        rw [hn t (by omega)] at hx
        simp at hx
      rw [hi.used t x hx, hu t ht x hx]
    · rw [hi.unused k (fun t x hx _ he => hk ⟨t, x, hx, he⟩), hnu k (fun t _ x hx _ he => hk ⟨t, x, hx, he⟩)]

private theorem run_append (ts us : List Nat) : ∀ (σ : St α), run σ (ts ++ us) = (do let σ ← run σ ts; run σ us) := by
  induction ts with
  | nil => intro σ; rfl
  | cons t ts ih =>
    intro σ
    simp only [List.cons_append, run]
    cases step σ t with
    | error e => rfl
    | ok σ' => exact ih σ'

/-- A thread that runs for some time. -/
private theorem run_alone (xs : List (Access α)) : ∀ {σ : St α} {t : Nat} {rest : List (Access α)} {m : Mem α} {r : Regs α}, (σ.threads t).code = xs ++ rest →
    seq xs σ.mem (σ.threads t).regs = .ok (m, r) → run σ (List.replicate xs.length t) = .ok ⟨m, put σ.threads t ⟨rest, r⟩⟩ := by
  induction xs with
  | nil =>
    intro σ t rest m r hc hs
    cases hs
    have : put σ.threads t ⟨rest, (σ.threads t).regs⟩ = σ.threads := by
      funext u
      by_cases hu : u = t
      · subst hu; rw [put_same, ← (show (σ.threads u).code = rest from hc)]
      · exact put_other _ _ hu
    rw [this]; rfl
  | cons x xs ih =>
    intro σ t rest m r hc hs
    simp only [seq] at hs
    cases hx : x.run σ.mem (σ.threads t).regs with
    | error e => rw [hx] at hs; cases hs
    | ok z =>
      rw [hx] at hs
      have := ih (σ := ⟨z.1, put σ.threads t ⟨xs ++ rest, z.2⟩⟩) (t := t) (rest := rest) (m := m) (r := r) (by simp [put_same]) (by simpa only [put_same, ok_bind] using hs)
      simp only [List.length_cons, List.replicate_succ, run, step, hc, List.cons_append, hx, ok_bind, this]
      congr 2
      funext u
      by_cases hu : u = t
      · subst hu; simp only [put_same]
      · simp only [put_other _ _ hu]

private def freeHead (b l : Nat) : List (Access α) := [testOccupied b l, destroyEntry b l, checkCount b, loadCount b]
private def freeTail (b l : Nat) : List (Access α) :=
  [loadWord (.free b (getBlockIndex 64 l)), storeWord (.free b (getBlockIndex 64 l)) l true, loadWord (.occupied b (getBlockIndex 64 l)), storeWord (.occupied b (getBlockIndex 64 l)) l false]

private theorem head_seq {bs S : Nat} {p : Pool α} {a : Abs α} {i : Nat} {v : α} {B : Block α} {x y : BitVec 64} (hat : At bs S p a i v B x y) (r : Regs α) :
    seq (freeHead (i / bs) (i % bs)) (contents p) r = .ok (put (contents p) (.entry (i / bs) (i % bs)) (some (.entry none)), { r with n := B.count }) := by
  obtain ⟨c1, c2, c3, c4⟩ := contents_block hat.block
  simp only [freeHead, seq, testOccupied, destroyEntry, checkCount, loadCount, Access.run, getBlockIndex, c3, hat.occupied, Option.map_some, hat.test, assert_true, ok_bind, pure_ok, c4, hat.object, put,
    reduceCtorEq, if_false, c1, hat.count, gt_iff_lt, decide_true]

private def bump (p : Pool α) (b : Nat) : Pool α := ⟨p.blockSize, p.blocks.modify b (fun B => ⟨B.count + 1, B.base, B.memory, B.freeEntries, B.occupiedEntries⟩)⟩

private theorem contents_bump {p : Pool α} {b : Nat} {B : Block α} (h : p.blocks[b]? = some B) : contents (bump p b) = put (contents p) (.count b) (some (.count (B.count + 1))) := by
  funext l
  have key : ∀ k, (bump p b).blocks[k]? = if k = b then some ⟨B.count + 1, B.base, B.memory, B.freeEntries, B.occupiedEntries⟩ else p.blocks[k]? := by
    intro k
    simp only [bump, List.getElem?_modify]
    by_cases hk : k = b
    · subst hk; simp [h]
    · simp [hk, Ne.symm hk]
  have hf : ∀ (k : Nat) {β : Type} (g : Block α → Option β), (∀ B : Block α, g ⟨B.count + 1, B.base, B.memory, B.freeEntries, B.occupiedEntries⟩ = g B) →
      (bump p b).blocks[k]?.bind g = p.blocks[k]?.bind g := by
    intro k β g hg
    rw [key]
    split
    · rename_i hk; subst hk; rw [h]; exact hg B
    · rfl
  cases l with
  | count k =>
    by_cases hk : k = b
    · subst hk; simp [contents, put, key]
    · simp [contents, put, key, hk]
  | free k n => rw [put_other _ _ (by simp)]; exact hf k _ (fun _ => rfl)
  | occupied k n => rw [put_other _ _ (by simp)]; exact hf k _ (fun _ => rfl)
  | entry k n => rw [put_other _ _ (by simp)]; exact hf k _ (fun _ => rfl)

private theorem count_bump {p : Pool α} {b : Nat} (h : b < p.blocks.length) : getAllocatedEntryCount (bump p b) = getAllocatedEntryCount p + 1 := by
  have key : ∀ (l : List (Block α)) (b n : Nat), b < l.length →
      (l.modify b (fun B => ⟨B.count + 1, B.base, B.memory, B.freeEntries, B.occupiedEntries⟩)).foldl (fun n B => n + B.count) n = l.foldl (fun n B => n + B.count) n + 1 := by
    have shift : ∀ (l : List (Block α)) (n : Nat), l.foldl (fun n B => n + B.count) (n + 1) = l.foldl (fun n B => n + B.count) n + 1 := by
      intro l
      induction l with
      | nil => intro n; rfl
      | cons B l ih => intro n; simp only [List.foldl_cons]; rw [show n + 1 + B.count = n + B.count + 1 by omega, ih]
    intro l
    induction l with
    | nil => intro b n h; simp at h
    | cons B l ih =>
      intro b n h
      cases b with
      | zero => simp only [List.modify_zero_cons, List.foldl_cons]; rw [← Nat.add_assoc, shift]
      | succ b => simp only [List.modify_succ_cons, List.foldl_cons]; exact ih b _ (by simpa using h)
  exact key _ _ _ h

private theorem retrieve_bump (S : Nat) (p : Pool α) (b k : Nat) : retrieveFromIndex S (bump p b) k = retrieveFromIndex S p k := by
  simp only [retrieveFromIndex, bump, getAllocatedPointer, List.length_modify]
  congr 1
  funext _
  congr 1
  funext _
  simp only [rd, List.getElem?_modify]
  cases p.blocks[k / p.blockSize]? with
  | none => rfl
  | some B =>
    simp only [Option.map_some, Functor.map]
    split <;> rfl

private theorem tail_seq {m : Mem α} {b l : Nat} {x y : BitVec 64} (hf : m (.free b (l / 64)) = some (.word x)) (ho : m (.occupied b (l / 64)) = some (.word y)) (r : Regs α) :
    seq (freeTail b l) m r =
      .ok (put (put m (.free b (l / 64)) (some (.word (wordAfter x l true)))) (.occupied b (l / 64)) (some (.word (wordAfter y l false))), { r with word := y }) := by
  simp only [freeTail, seq, loadWord, storeWord, Access.run, getBlockIndex, hf, ho, ok_bind, put, reduceCtorEq, if_false, if_true, wordAfter]

private theorem code_free (bs i : Nat) : Call.code (α := α) bs (.free i) = freeHead (i / bs) (i % bs) ++ (storeCount (i / bs) :: freeTail (i / bs) (i % bs)) := rfl

/-- Two threads that free different entries of one block race, and the pool may end with a count that is too high by one: it says that an entry is in use that is not, for ever. -/
theorem C161_count_violated {bs S : Nat} {p : Pool α} {a : Abs α} (h : Reached bs S p a) {i j : Nat} {v w : α} (hi : a.entries i = some (some v)) (hj : a.entries j = some (some w)) (hij : i ≠ j)
    (hb : i / bs = j / bs) :
    (∃ schedule σ, run (start p (fun t => if t = 0 then [.free i] else if t = 1 then [.free j] else [])) schedule = .ok σ ∧ Race σ 0 1) ∧
    ∃ schedule σ q, run (start p (fun t => if t = 0 then [.free i] else if t = 1 then [.free j] else [])) schedule = .ok σ ∧ (∀ t, Done σ t) ∧ σ.mem = contents q ∧ q.blockSize = bs ∧
      (∀ k, retrieveFromIndex S q k = if ((a.set j none).set i none).isLive k then .ok (a.address bs S k) else .error .assert) ∧
      getAllocatedEntryCount q = (((a.set j none).set i none).live bs).length + 1 := by
  have hbs := h.1
  have hr := h.repr
  have hloc : i % bs ≠ j % bs := by
    intro e
    apply hij
    rw [← Nat.div_add_mod i bs, ← Nat.div_add_mod j bs, hb, e]
  obtain ⟨B, x, y, hati⟩ := at_entry hr hbs hi
  obtain ⟨B', x', y', hatj⟩ := at_entry hr hbs hj
  have hBB : B' = B := by
    have := hatj.block
    rw [← hb, hati.block] at this
    exact (Option.some.inj this).symm
  subst hBB
  obtain ⟨p1, f1, hr1⟩ := free_repr hr hbs hj
  have e1 := free_form hr hbs hj hatj
  rw [f1] at e1
  injection e1 with e1
  have hi1 : (a.set j none).entries i = some (some v) := by simp [Abs.set, hij, hi]
  obtain ⟨B1, x1, y1, hat1⟩ := at_entry hr1 hbs hi1
  obtain ⟨p2, f2, hr2⟩ := free_repr hr1 hbs hi1
  have e2 := free_form hr1 hbs hi1 hat1
  rw [f2] at e2
  injection e2 with e2
  have hcount : B1.count = B'.count - 1 := by
    have h1 := hat1.block
    obtain ⟨hlt, -⟩ := List.getElem?_eq_some_iff.1 hatj.block
    rw [e1, hb, freed, List.getElem?_set_self hlt] at h1
    rw [← Option.some.inj h1]
  set b := i / bs with hbdef
  -- the first thread, up to its store of the counter
  let σ0 : St α := start p (fun t => if t = 0 then [.free i] else if t = 1 then [.free j] else [])
  have c0 : (σ0.threads 0).code = freeHead b (i % bs) ++ (storeCount b :: freeTail b (i % bs)) := by
    simp only [σ0, start, hr.size, if_true, List.flatMap_cons, List.flatMap_nil, List.append_nil, code_free]
    rfl
  have c1 : (σ0.threads 1).code = Call.code bs (.free j) := by simp [σ0, start, hr.size]
  have cn : ∀ t, t ≠ 0 → t ≠ 1 → (σ0.threads t).code = [] := by intro t h0 h1; simp [σ0, start, h0, h1]
  have s1 := run_alone (freeHead b (i % bs)) c0 (head_seq hati r0)
  set n1 : Mem α := put (contents p) (.entry b (i % bs)) (some (.entry none)) with hn1
  set σ1 : St α := ⟨n1, put σ0.threads 0 ⟨storeCount b :: freeTail b (i % bs), { r0 with n := B'.count }⟩⟩ with hσ1
  have c1' : (σ1.threads 1).code = Call.code bs (.free j) := by rw [hσ1]; simp only [put_other _ _ (show (1 : Nat) ≠ 0 by omega)]; exact c1
  have hL : ∀ x ∈ Call.code (α := α) bs (.free j), loc x ≠ .entry b (i % bs) := by
    intro x hx he
    rcases code_loc hx with h | h | h | h
    all_goals
      have h := h.1
      simp only [he, Call.index, reduceCtorEq, Loc.entry.injEq] at h
    exact hloc h.2
  have hag : ∀ l, l ≠ .entry b (i % bs) → n1 l = contents p l := fun l hl => put_other _ _ hl
  have r1 : (σ1.threads 1).regs = r0 := by rw [hσ1]; simp only [put_other _ _ (show (1 : Nat) ≠ 0 by omega)]; rfl
  constructor
  · -- both are about to store the counter
    obtain ⟨n2, s2, -, -⟩ := seq_frame (freeHead (j / bs) (j % bs)) (n := n1) (fun l => l ≠ .entry b (i % bs))
      (fun x hx => hL x (by rw [code_free]; exact List.mem_append_left _ hx)) (head_seq hatj r0) hag
    have s2' := run_alone (freeHead (j / bs) (j % bs)) (σ := σ1) (t := 1) (by rw [c1', code_free]) (by rw [r1]; exact s2)
    refine ⟨List.replicate 4 0 ++ List.replicate 4 1, ⟨n2, put σ1.threads 1 ⟨storeCount (j / bs) :: freeTail (j / bs) (j % bs), { r0 with n := B'.count }⟩⟩, ?_, ?_⟩
    · rw [run_append, show run _ (List.replicate 4 0) = .ok σ1 from s1, ok_bind]
      exact s2'
    · refine ⟨by omega, .count b, true, ?_, ?_⟩
      · simp only [put_other _ _ (show (0 : Nat) ≠ 1 by omega), hσ1, put_same]; rfl
      · simp only [put_same, ← hb]; rfl
  · obtain ⟨n2, s2, a2, b2⟩ := seq_frame (Call.code bs (.free j)) (n := n1) (fun l => l ≠ .entry b (i % bs)) hL (free_seq hatj r0) hag
    rw [← e1] at a2
    have hn2 : n2 = put (contents p1) (.entry b (i % bs)) (some (.entry none)) := by
      funext l
      by_cases hl : l = .entry b (i % bs)
      · subst hl
        rw [put_same, b2 _ (fun x hx _ => hL x hx), hn1, put_same]
      · rw [put_other _ _ hl]; exact a2 l hl
    have s2' := run_alone (Call.code bs (.free j)) (σ := σ1) (t := 1) (rest := []) (by rw [c1', List.append_nil]) (by rw [r1]; exact s2)
    set σ2 : St α := ⟨n2, put σ1.threads 1 ⟨[], { r0 with n := B'.count, word := y' }⟩⟩ with hσ2
    -- what the first thread would do after the second
    have alone := free_seq hat1 r0
    rw [code_free, seq_append, ← hbdef, head_seq hat1 r0, ← hn2, ← e2, ok_bind] at alone
    obtain ⟨k1, k2, k3, k4⟩ := contents_block hat1.block
    have kf : n2 (.free b (i % bs / 64)) = some (.word x1) := by rw [hn2, put_other _ _ (by simp), k2, hat1.free]; rfl
    have ko : n2 (.occupied b (i % bs / 64)) = some (.word y1) := by rw [hn2, put_other _ _ (by simp), k3, hat1.occupied]; rfl
    have kc : n2 (.count b) = some (.count B1.count) := by rw [hn2, put_other _ _ (by simp), k1]
    have step1 : ∀ (c : Nat) (r : Regs α), seq (storeCount b :: freeTail b (i % bs)) n2 { r with n := c + 1 } =
        .ok (put (put (put n2 (.count b) (some (.count c))) (.free b (i % bs / 64)) (some (.word (wordAfter x1 (i % bs) true)))) (.occupied b (i % bs / 64))
          (some (.word (wordAfter y1 (i % bs) false))), { r with n := c + 1, word := y1 }) := by
      intro c r
      have := tail_seq (m := put n2 (.count b) (some (.count c))) (b := b) (l := i % bs) (x := x1) (y := y1) (by rw [put_other _ _ (by simp), kf]) (by rw [put_other _ _ (by simp), ko]) { r with n := c + 1 }
      rw [← this]
      simp only [seq, storeCount, Access.run, kc, ok_bind, Nat.add_one_ne_zero, if_false, Nat.add_sub_cancel]
    obtain ⟨c, hc⟩ : ∃ c, B1.count = c + 1 := ⟨B1.count - 1, by have := hat1.count; omega⟩
    have hc' : B'.count = (c + 1) + 1 := by have := hatj.count; omega
    have st2 := step1 c r0
    rw [← hc] at st2
    have := alone.symm.trans st2
    injection this with this
    injection this with hm2 _
    have st3 := step1 (c + 1) r0
    have s3 := run_alone (storeCount b :: freeTail b (i % bs)) (σ := σ2) (t := 0) (rest := []) (by
      rw [hσ2]; simp only [put_other _ _ (show (0 : Nat) ≠ 1 by omega), hσ1, put_same, List.append_nil]) (by
      rw [show (σ2.threads 0).regs = { r0 with n := c + 1 + 1 } by rw [hσ2]; simp only [put_other _ _ (show (0 : Nat) ≠ 1 by omega), hσ1, put_same, hc']]
      exact st3)
    have hblk : p2.blocks[b]? = some ⟨B1.count - 1, B1.base, B1.memory.set (i % bs) none,
        ⟨B1.freeEntries.blocks.set (i % bs / 64) (wordAfter x1 (i % bs) true), B1.freeEntries.bitCount⟩,
        ⟨B1.occupiedEntries.blocks.set (i % bs / 64) (wordAfter y1 (i % bs) false), B1.occupiedEntries.bitCount⟩⟩ := by
      obtain ⟨hlt, -⟩ := List.getElem?_eq_some_iff.1 hat1.block
      rw [e2, freed, List.getElem?_set_self hlt]
    have hsh := shows_repr hr2 hbs
    refine ⟨List.replicate 4 0 ++ (List.replicate 9 1 ++ List.replicate 5 0),
      ⟨put (put (put n2 (.count b) (some (.count (c + 1)))) (.free b (i % bs / 64)) (some (.word (wordAfter x1 (i % bs) true)))) (.occupied b (i % bs / 64))
        (some (.word (wordAfter y1 (i % bs) false))), put σ2.threads 0 ⟨[], { r0 with n := c + 1 + 1, word := y1 }⟩⟩, bump p2 b, ?_, fun t => ?_, ?_, hsh.blockSize, fun k => ?_, ?_⟩
    · rw [run_append, show run _ (List.replicate 4 0) = .ok σ1 from s1, ok_bind, run_append, show run _ (List.replicate 9 1) = .ok σ2 from s2', ok_bind]
      exact s3
    · show Thread.code _ = _
      by_cases h0 : t = 0
      · subst h0; simp only [put_same]
      · by_cases h1 : t = 1
        · subst h1; simp only [put_other _ _ h0, hσ2, put_same]
        · simp only [put_other _ _ h0, hσ2, put_other _ _ h1, hσ1]; exact cn t h0 h1
    · rw [contents_bump hblk, hm2]
      funext l
      simp only [put, hc, Nat.add_sub_cancel]
      split
      · rename_i hl; subst hl; simp
      · split
        · rename_i hl; subst hl; simp
        · split <;> rfl
    · rw [retrieve_bump]; exact hsh.retrieve k
    · rw [count_bump (List.getElem?_eq_some_iff.1 hblk).1, hsh.allocated]

/-! ## Allocations -/

private theorem take_seq {m : Mem α} {b l c : Nat} {x y : BitVec 64} (hf : m (.free b (l / 64)) = some (.word x)) (ho : m (.occupied b (l / 64)) = some (.word y)) (hc : m (.count b) = some (.count c))
    (r : Regs α) : seq (takeCode b l) m r =
      .ok (put (put (put m (.free b (l / 64)) (some (.word (wordAfter x l false)))) (.occupied b (l / 64)) (some (.word (wordAfter y l true)))) (.count b) (some (.count (c + 1))),
        { r with n := c, word := y }) := by
  simp only [takeCode, seq, loadWord, storeWord, loadCount, incCount, Access.run, getBlockIndex, hf, ho, hc, ok_bind, put, reduceCtorEq, if_false, if_true, wordAfter]

private theorem wordAfter_twice (x : BitVec 64) (k : Nat) (v : Bool) : wordAfter (wordAfter x k v) k v = wordAfter x k v := by
  unfold wordAfter
  generalize mask k = m
  generalize -(if v then 1#64 else 0#64) = w
  ext i hi
  simp only [BitVec.getElem_or, BitVec.getElem_and, BitVec.getElem_not]
  cases x[i] <;> cases m[i] <;> cases w[i] <;> rfl

private theorem contents_taken {p : Pool α} {b l n c : Nat} {B : Block α} {x y x' y' : BitVec 64} (h : p.blocks[b]? = some B) (hf : B.freeEntries.blocks[l / 64]? = some x)
    (ho : B.occupiedEntries.blocks[l / 64]? = some y) :
    contents ⟨n, p.blocks.set b ⟨c, B.base, B.memory, ⟨B.freeEntries.blocks.set (l / 64) x', B.freeEntries.bitCount⟩, ⟨B.occupiedEntries.blocks.set (l / 64) y', B.occupiedEntries.bitCount⟩⟩⟩ =
      put (put (put (contents p) (.free b (l / 64)) (some (.word x'))) (.occupied b (l / 64)) (some (.word y'))) (.count b) (some (.count c)) := by
  obtain ⟨hlt, -⟩ := List.getElem?_eq_some_iff.1 h
  obtain ⟨c1, c2, c3, c4⟩ := contents_block h
  obtain ⟨d1, d2, d3, d4⟩ := contents_block (p := ⟨n, p.blocks.set b ⟨c, B.base, B.memory, ⟨B.freeEntries.blocks.set (l / 64) x', B.freeEntries.bitCount⟩,
    ⟨B.occupiedEntries.blocks.set (l / 64) y', B.occupiedEntries.bitCount⟩⟩⟩) (List.getElem?_set_self hlt)
  have other := fun (k : Nat) (hk : k ≠ b) => contents_other (p := p) (n := n) (B := ⟨c, B.base, B.memory, ⟨B.freeEntries.blocks.set (l / 64) x', B.freeEntries.bitCount⟩,
    ⟨B.occupiedEntries.blocks.set (l / 64) y', B.occupiedEntries.bitCount⟩⟩) hk
  funext z
  cases z with
  | count k =>
    by_cases hk : k = b
    · subst hk; rw [d1]; simp [put]
    · rw [(other k hk).1]; simp [put, hk]
  | free k j =>
    by_cases hk : k = b
    · subst hk
      rw [d2, map_set hf]
      by_cases hj : j = l / 64
      · subst hj; simp [put]
      · simp [put, hj, c2]
    · rw [(other k hk).2.1]; simp [put, hk]
  | occupied k j =>
    by_cases hk : k = b
    · subst hk
      rw [d3, map_set ho]
      by_cases hj : j = l / 64
      · subst hj; simp [put]
      · simp [put, hj, c3]
    · rw [(other k hk).2.2.1]; simp [put, hk]
  | entry k j =>
    by_cases hk : k = b
    · subst hk; rw [d4]; simp [put, c4]
    · rw [(other k hk).2.2.2]; simp [put]

private theorem mem_le_sum {l : List Nat} {c : Nat} (h : c ∈ l) : c ≤ l.sum := by
  induction l with
  | nil => simp at h
  | cons d l ih =>
    rcases List.mem_cons.1 h with rfl | h
    · simp
    · have := ih h; simp only [List.sum_cons]; omega

/-- Two threads that allocate at once may get the same entry: if both have searched before one of them marks the entry, both find the same one, mark it, and return its index; the count then says that two
more entries are in use. -/
theorem C161_allocate_violated {bs S : Nat} {p : Pool α} {a : Abs α} (h : Reached bs S p a) (hfree : a.firstFree bs ≠ a.capacity bs) :
    ∃ b l schedule σ q, findFree p = .ok (some (b, l)) ∧ (∀ base, ∃ p' address, allocateDefer S base p = .ok (p', b * bs + l, address)) ∧
      run ⟨contents p, fun t => ⟨if t < 2 then takeCode b l else [], ⟨0, 0#64, []⟩⟩⟩ schedule = .ok σ ∧ (∀ t, Done σ t) ∧ σ.mem = contents q ∧ q.blockSize = bs ∧
      (∀ k, retrieveFromIndex S q k = if (a.set (b * bs + l) (some none)).isLive k then .ok (a.address bs S k) else .error .assert) ∧
      getAllocatedEntryCount q = (a.live bs).length + 2 := by
  have hbs := h.1
  have hr := h.repr
  rcases findFree_repr hr hbs with ⟨h1, -⟩ | ⟨b, l, hb, hl, hff, hfirst, hlive⟩
  · exact absurd h1 hfree
  obtain ⟨B, base, g1, g2, g3, g4⟩ := hr.get hb
  obtain ⟨x, x1, x2, -⟩ := set_form g4.free hl false
  obtain ⟨y, y1, y2, -⟩ := set_form g4.occupied hl true
  let q1 : Pool α := ⟨bs, p.blocks.set b ⟨B.count + 1, B.base, B.memory, ⟨B.freeEntries.blocks.set (l / 64) (wordAfter x l false), B.freeEntries.bitCount⟩,
    ⟨B.occupiedEntries.blocks.set (l / 64) (wordAfter y l true), B.occupiedEntries.bitCount⟩⟩⟩
  have hal : ∀ base, allocateDefer S base p = .ok (q1, b * bs + l, B.base + l * S) := by
    intro base
    simp only [allocateDefer, chooseEntry, hff, ok_bind, pure_ok, rd, g1, Block.take, Bitset.reset, x2, y2, wr_ok hb, hr.size, Block.address, q1]
  have hq1 : Repr bs S q1 (a.set (b * bs + l) (some none)) := by
    have hap : ∀ c ∈ a.bases, Abs.Apart bs S (a.bases.sum + bs * S) c := by
      intro c hc
      right
      have := mem_le_sum hc
      omega
    obtain ⟨q, e, r⟩ := allocateDefer_repr hr hbs hap
    rw [hal] at e
    injection e with e
    injection e with e1 e2
    rw [← e1, hfirst, Abs.grow, if_neg hfree] at r
    exact r
  have hlen : ((a.set (b * bs + l) (some none)).live bs).length = (a.live bs).length + 1 := by
    have r := hq1
    have := live_alloc (p' := q1) (base := 0) (x := none) hr hbs (by rw [Abs.grow, if_neg hfree, hfirst]; exact r)
    rw [Abs.grow, if_neg hfree, hfirst] at this
    exact this
  obtain ⟨k1, k2, k3, k4⟩ := contents_block g1
  have hc1 : contents q1 = _ := contents_taken (n := bs) (c := B.count + 1) (x' := wordAfter x l false) (y' := wordAfter y l true) g1 x1 y1
  have s1 := take_seq (m := contents p) (b := b) (l := l) (c := B.count) (by rw [k2, x1]; rfl) (by rw [k3, y1]; rfl) k1 r0
  rw [← hc1] at s1
  let σ0 : St α := ⟨contents p, fun t => ⟨if t < 2 then takeCode b l else [], r0⟩⟩
  have t1 := run_alone (takeCode b l) (σ := σ0) (t := 0) (rest := []) (by simp [σ0]) s1
  set σ1 : St α := ⟨contents q1, put σ0.threads 0 ⟨[], { r0 with n := B.count, word := y }⟩⟩ with hσ1
  have s2 := take_seq (m := contents q1) (b := b) (l := l) (c := B.count + 1) (x := wordAfter x l false) (y := wordAfter y l true) (by rw [hc1]; simp [put]) (by rw [hc1]; simp [put]) (by rw [hc1]; simp [put]) r0
  have hblk : q1.blocks[b]? = some _ := List.getElem?_set_self hb
  have hc2 : put (put (put (contents q1) (.free b (l / 64)) (some (.word (wordAfter (wordAfter x l false) l false)))) (.occupied b (l / 64))
      (some (.word (wordAfter (wordAfter y l true) l true)))) (.count b) (some (.count (B.count + 1 + 1))) = contents (bump q1 b) := by
    rw [contents_bump hblk, wordAfter_twice, wordAfter_twice, hc1]
    funext z
    simp only [put]
    split
    · rfl
    · split
      · rename_i hz; subst hz; simp
      · split
        · rename_i hz; subst hz; simp
        · rfl
  rw [hc2] at s2
  have t2 := run_alone (takeCode b l) (σ := σ1) (t := 1) (rest := []) (by rw [hσ1]; simp [put, σ0]) (by
    rw [show (σ1.threads 1).regs = r0 by rw [hσ1]; simp [put, σ0]]; exact s2)
  have hsh := shows_repr hq1 hbs
  refine ⟨b, l, List.replicate 6 0 ++ List.replicate 6 1, ⟨contents (bump q1 b), put σ1.threads 1 ⟨[], { r0 with n := B.count + 1, word := wordAfter y l true }⟩⟩, bump q1 b, hff,
    fun base => ⟨_, _, hal base⟩, ?_, fun t => ?_, rfl, rfl, fun k => ?_, ?_⟩
  · show run σ0 _ = _
    rw [run_append, show run σ0 (List.replicate 6 0) = .ok σ1 from t1, ok_bind]
    exact t2
  · show Thread.code _ = _
    by_cases h1 : t = 1
    · subst h1; simp only [put_same]
    · by_cases h0 : t = 0
      · subst h0; simp [put, hσ1]
      · simp only [put_other _ _ h1, hσ1, put_other _ _ h0, σ0, if_neg (show ¬ t < 2 by omega)]
  · rw [retrieve_bump]; exact hsh.retrieve k
  · rw [count_bump (List.getElem?_eq_some_iff.1 hblk).1, hsh.allocated, hlen]

/-- The hypotheses are met by a pool of blocks of two entries: threads that use different blocks. -/
example : ∃ p a, Reached 2 4 (α := Nat) p a ∧ ∃ (calls : Nat → List (Call Nat)) (reads : Nat → List Nat), (∀ t, Legal a (calls t) (reads t)) ∧ Apart 2 calls ∧
    calls 0 = [.read 1, .free 1] ∧ calls 1 = [.assign 2 7, .free 3] ∧ reads 0 = [40] := by
  obtain ⟨p, a, h, h0, h1, h2, h3, -, -⟩ := sample_reached
  refine ⟨p, a, h, fun t => if t = 0 then [.read 1, .free 1] else if t = 1 then [.assign 2 7, .free 3] else [], fun t => if t = 0 then [40] else [], fun t => ?_, ?_, rfl, rfl, rfl⟩
  · by_cases ht : t = 0
    · subst ht; exact .read h1 (.free h1 (.nil _))
    · by_cases ht' : t = 1
      · subst ht'; exact .assign h2 (.free (by simp only [Abs.set]; exact h3) (.nil _))
      · simp only [if_neg ht, if_neg ht']; exact .nil _
  · intro t u htu x hx y hy
    by_cases ht : t = 0 <;> by_cases ht' : t = 1 <;> by_cases hu : u = 0 <;> by_cases hu' : u = 1 <;> simp only [ht, ht', hu, hu', if_true, if_false, List.mem_cons, List.not_mem_nil, or_false] at hx hy <;>
      first
      | omega
      | (simp_all; try (rcases hx with rfl | rfl <;> rcases hy with rfl | rfl <;> simp [Call.index, Call.writes, Call.frees]))

/-- Two entries of one block, and a free entry. -/
example : (∃ p a, Reached 2 4 (α := Nat) p a ∧ ∃ v w, a.entries 0 = some (some v) ∧ a.entries 1 = some (some w) ∧ 0 / 2 = 1 / 2) ∧
    ∃ p a, Reached 2 4 (α := Nat) p a ∧ a.firstFree 2 ≠ a.capacity 2 := by
  obtain ⟨p, a, h, h0, h1, h2, h3, -, -⟩ := sample_reached
  refine ⟨⟨p, a, h, _, _, h0, h1, rfl⟩, ?_⟩
  obtain ⟨p0, p1, e0, e, -⟩ := C32_history 2 4 1000 (by omega) ([] : List (Op Nat)) trivial
  exact ⟨p1, .start 1000, ⟨by omega, 1000, [], p0, _, e0, trivial, e, rfl⟩, by decide⟩

end Threads
end Verif.MemoryPool
