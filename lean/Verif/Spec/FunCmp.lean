import Verif.Spec.IRSem

/-! Copies of functions with other names and another order of blocks (C44). -/

set_option autoImplicit false

namespace DK.Spec

/-- Renaming of values by `σ` and of blocks by `τ`. -/
def renameKey (σ τ : Nat → Nat) : Key → Key
  | .val v => .val (σ v)
  | .blk b => .blk (τ b)

/-- Renaming in an operand. -/
def renameOpnd (σ τ : Nat → Nat) : Opnd → Opnd
  | .ref k => .ref (renameKey σ τ k)
  | o => o

/-- Renaming in special state: the incoming blocks of phis. -/
def renameSpecial (τ : Nat → Nat) : Special → Special
  | .phi bs => .phi (bs.map τ)
  | s => s

/-- Renaming in an instruction. -/
def renameInst (σ τ : Nat → Nat) (i : Inst) : Inst :=
  { i with id := σ i.id, ops := i.ops.map (fun o => (renameOpnd σ τ o.1, o.2)),
           special := renameSpecial τ i.special }

/-- Renaming in a block. -/
def renameBlock (σ τ : Nat → Nat) (b : Block) : Block :=
  ⟨τ b.id, b.insts.map (renameInst σ τ), renameInst σ τ b.term⟩

/-- A copy of a function with other names, and with the blocks after the entry in another order. -/
structure CopyOf (σ τ : Nat → Nat) (f g : Fn) : Prop where
  attrs : g.attrs = f.attrs
  gc : g.gc = f.gc
  sect : g.sect = f.sect
  vararg : g.vararg = f.vararg
  cc : g.cc = f.cc
  ret : g.ret = f.ret
  args : g.args = f.args.map (fun a => (σ a.1, a.2))
  entry : g.entry = renameBlock σ τ f.entry
  rest : g.rest.Perm (f.rest.map (renameBlock σ τ))

/-- Valid functions: blocks have different identities, the targets of terminators are blocks of the
function, and address computations have a pointer. -/
structure WellFormed (f : Fn) : Prop where
  ids : (f.blocks.map Block.id).Nodup
  targets : ∀ B ∈ f.blocks, ∀ t ∈ B.term.succs, t ∈ f.blocks.map Block.id
  geps : ∀ B ∈ f.blocks, ∀ i ∈ B.code, ∀ src, i.special = .gep src → i.ops ≠ []

end DK.Spec
