import Verif.Bitset.Spec

/-!
# Histories of operations on bitset variables

A program over variables holding bitsets, numbered by naturals, all default constructed at first.  `Op` lists the
operations of the API; operands are variables, so that an operand may be the target itself.  `Op.exec` runs an operation
with the model of the code, `Op.spec` runs it on sequences of booleans, `Op.Valid` states when the call is allowed.
-/

namespace Verif.Bitset
open Verif.Cpp

/-- What a proxy `b[i]` is used for. -/
inductive ProxyUse where
  | set (v : Bool)
  | reset
  | flip
  | assign (v : Bool)
  | orAssign (v : Bool)
  | andAssign (v : Bool)
  | xorAssign (v : Bool)
  | subAssign (v : Bool)

inductive Op (w : Nat) where
  /-- `d = Bitset()` -/
  | construct (d : Nat)
  /-- `d = Bitset(n, v)` -/
  | ofSize (d n : Nat) (v : Bool)
  /-- `d = Bitset(s)`, `d = s` -/
  | ofString (d : Nat) (s : List Char)
  /-- `d = Bitset(v)` for an unsigned integer of `t` bits -/
  | ofInt (d : Nat) (t : Nat) (v : BitVec t)
  /-- `d = a` -/
  | copy (d a : Nat)
  /-- `d.Swap(a)` -/
  | swap (d a : Nat)
  | clear (d : Nat)
  | resize (d n : Nat) (v : Bool)
  | setAll (d : Nat) (v : Bool)
  | resetAll (d : Nat)
  | set (d i : Nat) (v : Bool)
  | reset (d i : Nat)
  | flip (d : Nat)
  | unboundedSet (d i : Nat) (v : Bool)
  | unboundedReset (d i : Nat)
  | setBlock (d i : Nat) (x : BitVec w)
  | shiftLeft (d p : Nat)
  | shiftRight (d p : Nat)
  | reverse (d : Nat)
  /-- `d.PerformsAND(a, b)`; `d &= b` is the case `a = d` -/
  | performsAND (d a b : Nat)
  | performsOR (d a b : Nat)
  | performsXOR (d a b : Nat)
  | performsNOT (d a : Nat)
  /-- `d = a & b` -/
  | opAnd (d a b : Nat)
  | opOr (d a b : Nat)
  | opXor (d a b : Nat)
  | opNot (d a : Nat)
  /-- `d[i] op v` -/
  | proxy (d i : Nat) (u : ProxyUse)
  /-- `d[i] = a[j]` -/
  | proxyBit (d i a j : Nat)
  | appendBits (d : Nat) (t : Nat) (v : BitVec t) (n : Nat)
  | write (d : Nat) (mem : List (BitVec 8)) (seq : Sequence) (n : Nat)

variable {w : Nat}

/-- A store with variable `d` replaced. -/
def upd {α : Type} (σ : Nat → α) (d : Nat) (x : α) : Nat → α := fun k => if k = d then x else σ k

/-- Variable `a` as an operand of an operation on variable `d`. -/
def operand (σ : Nat → Bitset w) (d a : Nat) : Operand w := if a = d then .self else .other (σ a)

/-- Use of a proxy in the model. -/
def ProxyUse.exec (u : ProxyUse) (p : Bit w) (b : Bitset w) : M (Bitset w) :=
  match u with
  | .set v => p.set b v
  | .reset => p.reset b
  | .flip => p.flip b
  | .assign v => p.assign b v
  | .orAssign v => p.orAssign b v
  | .andAssign v => p.andAssign b v
  | .xorAssign v => p.xorAssign b v
  | .subAssign v => p.subAssign b v

/-- Use of a proxy on a boolean. -/
def ProxyUse.spec (u : ProxyUse) (x : Bool) : Bool :=
  match u with
  | .set v => v
  | .reset => false
  | .flip => !x
  | .assign v => v
  | .orAssign v => x || v
  | .andAssign v => x && v
  | .xorAssign v => x ^^ v
  | .subAssign v => x && !v

/-- The new value of the target, computed by the model of the code. -/
def Op.result (σ : Nat → Bitset w) : Op w → M (Bitset w)
  | .construct _ => .ok empty
  | .ofSize _ n v => Bitset.ofSize n v
  | .ofString _ s => Bitset.ofString s
  | .ofInt _ _ v => Bitset.ofInt false v
  | .copy _ a => .ok (σ a)
  | .swap _ a => .ok (σ a)
  | .clear d => .ok (Bitset.clear (σ d))
  | .resize d n v => Bitset.resize (σ d) n v
  | .setAll d v => Bitset.setAll (σ d) v
  | .resetAll d => Bitset.resetAll (σ d)
  | .set d i v => Bitset.set (σ d) i v
  | .reset d i => Bitset.reset (σ d) i
  | .flip d => Bitset.flip (σ d)
  | .unboundedSet d i v => Bitset.unboundedSet (σ d) i v
  | .unboundedReset d i => Bitset.unboundedReset (σ d) i
  | .setBlock d i x => Bitset.setBlock (σ d) i x
  | .shiftLeft d p => Bitset.shiftLeft (σ d) p
  | .shiftRight d p => Bitset.shiftRight (σ d) p
  | .reverse d => Bitset.reverse (σ d)
  | .performsAND d a b => Bitset.performsAND (σ d) (operand σ d a) (operand σ d b)
  | .performsOR d a b => Bitset.performsOR (σ d) (operand σ d a) (operand σ d b)
  | .performsXOR d a b => Bitset.performsXOR (σ d) (operand σ d a) (operand σ d b)
  | .performsNOT d a => Bitset.performsNOT (σ d) (operand σ d a)
  | .opAnd _ a b => Bitset.opAnd (σ a) (σ b)
  | .opOr _ a b => Bitset.opOr (σ a) (σ b)
  | .opXor _ a b => Bitset.opXor (σ a) (σ b)
  | .opNot _ a => Bitset.opNot (σ a)
  | .proxy d i u => do
      let p ← Bitset.index (σ d) i
      u.exec p (σ d)
  | .proxyBit d i a j => do
      let p ← Bitset.index (σ d) i
      let q ← Bitset.index (σ a) j
      p.assignBit (σ d) q (σ a)
  | .appendBits d _ v n => Bitset.appendBits (σ d) v n
  | .write d mem seq n => do
      let r ← Bitset.write (σ d) mem seq n
      pure r.1

/-- The target of an operation. -/
def Op.target : Op w → Nat
  | .construct d | .ofSize d _ _ | .ofString d _ | .ofInt d _ _ | .copy d _ | .swap d _ | .clear d | .resize d _ _
  | .setAll d _ | .resetAll d | .set d _ _ | .reset d _ | .flip d | .unboundedSet d _ _ | .unboundedReset d _
  | .setBlock d _ _ | .shiftLeft d _ | .shiftRight d _ | .reverse d | .performsAND d _ _ | .performsOR d _ _
  | .performsXOR d _ _ | .performsNOT d _ | .opAnd d _ _ | .opOr d _ _ | .opXor d _ _ | .opNot d _ | .proxy d _ _
  | .proxyBit d _ _ _ | .appendBits d _ _ _ | .write d _ _ _ => d

/-- One operation in the model of the code.  (`Swap`, Bitset.inl:774-782, exchanges the members; all others change
their target only.) -/
def Op.exec (σ : Nat → Bitset w) (op : Op w) : M (Nat → Bitset w) := do
  let r ← op.result σ
  match op with
  | .swap d a => pure (upd (upd σ d r) a (σ d))
  | _ => pure (upd σ op.target r)

/-- The new value of the target, on sequences of booleans. -/
def Op.specResult (σ : Nat → List Bool) : Op w → List Bool
  | .construct _ => []
  | .ofSize _ n v => List.replicate n v
  | .ofString _ s => Seq.ofString s
  | .ofInt _ t v => Seq.lowBits v (if t ≤ w then t else v.toNat.log2 + if v = 0#t then 0 else 1)
  | .copy _ a => σ a
  | .swap _ a => σ a
  | .clear _ => []
  | .resize d n v => Seq.resize (σ d) n v
  | .setAll d v => List.replicate (σ d).length v
  | .resetAll d => List.replicate (σ d).length false
  | .set d i v => (σ d).set i v
  | .reset d i => (σ d).set i false
  | .flip d => (σ d).map (fun v => !v)
  | .unboundedSet d i v => Seq.unboundedSet (σ d) i v
  | .unboundedReset d i => (σ d).set i false
  | .setBlock d i x => Seq.setBlock (σ d) i x
  | .shiftLeft d p => Seq.shiftLeft (σ d) p
  | .shiftRight d p => Seq.shiftRight (σ d) p
  | .reverse d => (σ d).reverse
  | .performsAND _ a b => Seq.zip (fun x y => x && y) (σ a) (σ b)
  | .performsOR _ a b => Seq.zip (fun x y => x || y) (σ a) (σ b)
  | .performsXOR _ a b => Seq.zip (fun x y => x ^^ y) (σ a) (σ b)
  | .performsNOT _ a => (σ a).map (fun v => !v)
  | .opAnd _ a b => Seq.zip (fun x y => x && y) (σ a) (σ b)
  | .opOr _ a b => Seq.zip (fun x y => x || y) (σ a) (σ b)
  | .opXor _ a b => Seq.zip (fun x y => x ^^ y) (σ a) (σ b)
  | .opNot _ a => (σ a).map (fun v => !v)
  | .proxy d i u => (σ d).set i (u.spec ((σ d).getD i false))
  | .proxyBit d i a j => (σ d).set i ((σ a).getD j false)
  | .appendBits d _ v n => σ d ++ Seq.lowBits v n
  | .write d mem seq n => σ d ++ Seq.stream mem seq.ptr seq.bit n

/-- One operation on sequences of booleans. -/
def Op.spec (σ : Nat → List Bool) (op : Op w) : Nat → List Bool :=
  match op with
  | .swap d a => upd (upd σ d (σ a)) a (σ d)
  | _ => upd σ op.target (op.specResult σ)

/-- When `AppendBits(v, n)` works on a bitset of `size` bits: the value has no bit set in `[n, free bits of the last
block)`, and the last new block, if any, is not completely filled when a block has 32 bits or more (`1 << 32`). -/
def AppendAllowed (w size : Nat) {t : Nat} (v : BitVec t) (n : Nat) : Prop :=
  (size % w = 0 ∨ ∀ i, n ≤ i → i < w - size % w → v.getLsbD i = false) ∧
  (w < 32 ∨ (size + n) % w ≠ 0 ∨ (size + n + w - 1) / w = (size + w - 1) / w)

/-- When `Write` works: at least one bit, the bytes exist, and the unread bits of the last byte read are zero, as far as they fall in the block
that was the (partly filled) last one before that byte. -/
def WriteAllowed (w size : Nat) (mem : List (BitVec 8)) (seq : Sequence) (n : Nat) : Prop :=
  seq.bit < 8 ∧ 0 < n ∧ seq.ptr + (seq.bit + n - 1) / 8 < mem.length ∧
  ∀ k, seq.bit + n ≤ k → k / 8 = (seq.bit + n - 1) / 8 → (size + (8 * ((seq.bit + n - 1) / 8) - seq.bit)) % w ≠ 0 →
    (size + (k - seq.bit)) / w = (size + (8 * ((seq.bit + n - 1) / 8) - seq.bit)) / w → Seq.streamBit mem seq.ptr k = false

/-- The calls that are allowed, in terms of the sequences of booleans. -/
def Op.Valid (σ : Nat → List Bool) : Op w → Prop
  | .ofString _ s => ∀ c ∈ s, c = '0' ∨ c = '1'
  | .ofInt _ t _ => 0 < t
  | .set d i _ | .reset d i | .proxy d i _ => i < (σ d).length
  | .setBlock d i _ => i < ((σ d).length + w - 1) / w
  | .proxyBit d i a j => i < (σ d).length ∧ j < (σ a).length
  | .appendBits d _ v n => AppendAllowed w (σ d).length v n
  | .write d mem seq n => WriteAllowed w (σ d).length mem seq n
  | _ => True

/-- A history in the model of the code. -/
def run (σ : Nat → Bitset w) : List (Op w) → M (Nat → Bitset w)
  | [] => .ok σ
  | op :: ops => do
    let σ ← op.exec σ
    run σ ops

/-- A history on sequences of booleans. -/
def specRun (σ : Nat → List Bool) : List (Op w) → (Nat → List Bool)
  | [] => σ
  | op :: ops => specRun (op.spec σ) ops

/-- A history all of whose calls are allowed. -/
def ValidHistory (σ : Nat → List Bool) : List (Op w) → Prop
  | [] => True
  | op :: ops => op.Valid σ ∧ ValidHistory (op.spec σ) ops

/-- The value of some variable after some allowed history. -/
def Reachable (b : Bitset w) : Prop :=
  ∃ (ops : List (Op w)) (σ : Nat → Bitset w) (k : Nat), ValidHistory (fun _ => []) ops ∧ run (fun _ => empty) ops = .ok σ ∧ σ k = b

end Verif.Bitset
