import Verif.Spec.Plan

/-!
# Histories of correct use, without checks of array shapes

Everything a client may do, in any order and any number of times: call the library, open and close nested regions,
call `gradient` and `jacobian` for functions of all kinds, and solve differential equations.  In any arithmetic.
-/

namespace Spec
open Fz
variable {W : Type}

/-- the states a client reaches with correct calls, of the library, of `cvodes_sol`, and of `gradient` and `jacobian` for
functions that look at values, call `gradient` and `jacobian` themselves, and solve differential equations, whatever lies
in memory behind the end of arrays -/
inductive OrderlyL (R : Type) [Arith R] [Rep W R] : Client W → Prop where
  | start : OrderlyL R Client.init
  | call {c c' : Client W} (J : Junk W R) (k : Call R) (h : OrderlyL R c) (hk : k.ProperL c)
      (e : k.execL J c = .ok c') : OrderlyL R c'
  | ask {c : Client W} {s : St W} (J : Junk W R) (q : Ask R) (is : List Nat) (ys : List R) (r : Answer R)
      (h : OrderlyL R c) (hq : q.ProperL c is ys) (e : q.callL J (is.map (nth c.env)) c.st = .ok (r, s)) :
      OrderlyL R ⟨s, c.env, c.marks⟩
  | init {τ : Type} {c : Client W} {s : St W} (J : Junk W R) (p : Ode R τ) (is es : List Nat) (z ys : List R)
      (yt : List (List Var)) (h : OrderlyL R c) (hp : p.ProperY c is es z ys)
      (e : p.callY J (is.map (nth c.env)) (es.map (nth c.env)) c.st = .ok (yt, s)) :
      OrderlyL R ⟨s, c.env ++ yt.flatten, c.marks⟩
  | par {τ : Type} {c : Client W} {s : St W} (J : Junk W R) (p : Ode R τ) (y : List R) (is es : List Nat)
      (q ys : List R) (r : List (List Var) × List R) (h : OrderlyL R c) (hp : p.ProperP c y is es q ys)
      (e : p.callP J y (is.map (nth c.env)) (es.map (nth c.env)) c.st = .ok (r, s)) :
      OrderlyL R ⟨s, c.env ++ r.1.flatten, c.marks⟩
  | gradient {c : Client W} {s : St W} (J : Junk W R) (f : Plan R) (is : List Nat) (ys x : List R) (r : R × List R)
      (h : OrderlyL R c) (hf : f.ProperL c is ys x) (ha : f.Apart) (hk : f.Careful) (hr : f.bookGradient ys x ≠ none)
      (e : gradientL J (f.scalarL J (is.map (nth c.env))) x c.st = .ok (r, s)) : OrderlyL R ⟨s, c.env, c.marks⟩
  | jacobian {c : Client W} {s : St W} (J : Junk W R) (f : Plan R) (is : List Nat) (ys x : List R)
      (r : List R × List (List R)) (h : OrderlyL R c) (hf : f.ProperL c is ys x) (hk : f.Careful) (hx : x ++ ys ≠ [])
      (e : jacobianL J (f.vectorL J (is.map (nth c.env))) (f.bookJacobian ys x).1.length x c.st = .ok (r, s)) :
      OrderlyL R ⟨s, c.env, c.marks⟩
  | deepGradient {c : Client W} {s : St W} (J : Junk W R) (f : Deep R) (is : List Nat) (ys x : List R) (r : R × List R)
      (h : OrderlyL R c) (hf : f.ProperL c is ys x) (ha : f.Apart False) (hk : f.Careful False)
      (hr : f.bookGradient ys x ≠ none)
      (e : gradientL J (f.scalarL J (is.map (nth c.env))) x c.st = .ok (r, s)) : OrderlyL R ⟨s, c.env, c.marks⟩
  | deepJacobian {c : Client W} {s : St W} (J : Junk W R) (f : Deep R) (is : List Nat) (ys x : List R)
      (r : List R × List (List R)) (h : OrderlyL R c) (hf : f.ProperL c is ys x) (hk : f.Careful False)
      (hx : x ++ ys ≠ [])
      (e : jacobianL J (f.vectorL J (is.map (nth c.env))) (f.bookJacobian ys x).1.length x c.st = .ok (r, s)) :
      OrderlyL R ⟨s, c.env, c.marks⟩

end Spec
