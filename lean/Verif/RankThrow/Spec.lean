import Verif.RankThrow.Model

/-! # C140: where the other ranks end up when one of them throws -/
namespace Verif.RankThrow
open Verif.Rounds

variable {n : Nat}

/-- No rank can move any more. -/
def Final (prog : List (Op n)) (env : Env n) (halt : Halt n) (s : St n) : Prop := ∀ s', ¬ TStep prog env halt s s'

/-- Rank `r` has returned from all its calls. -/
def Returned (prog : List (Op n)) (s : St n) (r : Fin n) : Prop := s.pc r = prog.length

/-- **C140**: when making the mesh fails, the call ends on every rank, with an exception or without: no rank is left waiting. -/
def C140Statement : Prop :=
  ∀ (n : Nat) (calls : List (Call n)) (j : Nat) (c : Call n) (env : Env n) (s : St n), calls[j]? = some c → generates c = true →
    TReach (program calls) env (generatorThrows calls j) s → Final (program calls) env (generatorThrows calls j) s →
      ∀ r, Returned (program calls) s r ∨ Thrown (generatorThrows calls j) s r

end Verif.RankThrow
