import Verif.Spec.Proper
import Verif.Spec.Region

/-!
# How much memory a program takes

The word storage has the capacities 0 and 12288·2^k, the variable table 0 and 1024·2^k (C34).
-/

namespace Spec
open Fz
variable {W R : Type} [Arith R] [Rep W R]

/-- between `s` and `s'` the tape has not become longer, and the storage has grown only as far as is needed to hold
what was on the tape at the start and `n` words more; every variable takes six words or more -/
structure Frugal (s s' : St W) (n : Nat) : Prop where
  tape : s'.tape.head = s.tape.head
  vars : existing s' = existing s
  words : ∀ k, s.tape.size ≤ 12288 * 2 ^ k → s.tape.head - 1 + n ≤ 12288 * 2 ^ k → s'.tape.size ≤ 12288 * 2 ^ k
  table : ∀ k, s.nVaris ≤ 1024 * 2 ^ k → s.tape.head - 1 + n ≤ 6 * (1024 * 2 ^ k) → s'.nVaris ≤ 1024 * 2 ^ k

/-- while the client makes the calls, at no time more than `n` words and `m` variables are in use -/
def StaysIn (n m : Nat) : List (Call R) → Client W → Prop
  | [], c => c.st.tape.head - 1 ≤ n ∧ (existing c.st).length ≤ m
  | k :: ks, c => c.st.tape.head - 1 ≤ n ∧ (existing c.st).length ≤ m ∧ ∀ c', k.exec c = .ok c' → StaysIn n m ks c'

end Spec
