/-!
Specification for C93: what data kept accessible for a distributed assignment must do, independently of how it is reached.
-/
namespace Verif.Pdd

/-- a message: where in the local data of the receiver it begins, and what it holds -/
structure Msg (V : Type) where
  off : Nat
  data : List V

/-- data after a message has arrived: the message's values in its place, everything else as before -/
def arrived {V : Type} (b : Nat → V) (m : Msg V) : Nat → V := fun i =>
  if h : m.off ≤ i ∧ i - m.off < m.data.length then m.data[i - m.off] else b i

/-- data after messages have arrived one after the other -/
def allArrived {V : Type} (b : Nat → V) (ms : List (Msg V)) : Nat → V := ms.foldl arrived b

/-- data after single elements have been putAll in it one after the other -/
def putAll {V : Type} (b : Nat → V) (l : List (Nat × V)) : Nat → V := l.foldl (fun b p => fun i => if i = p.1 then p.2 else b i) b

end Verif.Pdd
