import Verif.Rounds.Model

/-! # C108: no communication round deadlocks or takes a message of another round -/
namespace Verif.Rounds

variable {n : Nat}

/-- Every rank is at the end. -/
def Done (prog : List (Op n)) (s : St n) : Prop := ∀ r, s.pc r = prog.length

/-- A wildcard receive is followed by an operation that all ranks enter before any of them sends with the same tag again. -/
def Separated (prog : List (Op n)) : Prop :=
  ∀ (k k' tag : Nat) (dst : Fin n → Fin n) (op' : Op n), k < k' → prog[k]? = some (Op.wild tag dst) → prog[k']? = some op' → (∃ q r, op'.has q r tag) →
    ∃ b, k < b ∧ b < k' ∧ prog[b]? = some (Op.coll true)

/-- Every rank sends to another one in a round with wildcard. -/
def Permuting (prog : List (Op n)) : Prop := ∀ (k tag : Nat) (dst : Fin n → Fin n), prog[k]? = some (Op.wild tag dst) → Function.Bijective dst

/-- **C108**: whatever the interleaving of the ranks and the buffering of messages, each message is received in the round in which it was sent, by whom it was sent to;
no state is a deadlock; in the end every message was received, and nothing is left over. -/
def C108Statement (prog : List (Op n)) : Prop :=
  ∀ env : Env n,
    (∀ s, Reach prog env s → ∀ r k q t m, s.got r k q t = some m → m = k ∧ ∃ op, prog[k]? = some op ∧ op.has q r t) ∧
    (∀ s, Reach prog env s → Done prog s ∨ ∃ s', Step prog env s s') ∧
    (∀ s, Reach prog env s → Done prog s → (∀ r k q t op, prog[k]? = some op → op.has q r t → s.got r k q t = some k) ∧ ∀ q r t, s.chan q r t = []) ∧
    ¬ ∃ f : Nat → St n, Reach prog env (f 0) ∧ ∀ i, Step prog env (f i) (f (i + 1))

end Verif.Rounds
