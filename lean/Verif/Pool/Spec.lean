import Verif.Pool.Model
/-! Words used in the statements of C72 and C73. -/
namespace Verif.Pool
open Verif.Common

/-- The online CPUs in ascending order. -/
def onlineCpus (online : List Bool) : List Nat := (List.range online.length).filter fun c => online[c]? == some true

/-- `k` calls of `GetNextProactor`, one after another, by caller 0. -/
def callsInRow : Nat → List NAct
  | 0 => []
  | k + 1 => callsInRow k ++ [.load 0, .store 0]

end Verif.Pool
