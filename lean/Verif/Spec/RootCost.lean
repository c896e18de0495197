import Verif.Spec.ConnComp

/-! What the root queries of `ConnComp` cost, counted in turns of the loop of `get_root`. -/

namespace Verif.Spec

variable {m : Nat}

/-- The loop of `get_root` started at `n` takes `t` turns: with fuel for `t` turns or fewer it does not come
to its end, with more it does. -/
def Turns (p : List (Id m × Id m)) (n : Id m) (t : Nat) : Prop :=
  ∀ f, ConnComp.rootLoop f p n = .error .diverge ↔ f ≤ t

/-- `n` is `d` steps below its root in the map `parent`. -/
inductive Depth (parent : Id m → Option (Id m)) : Id m → Nat → Prop
  | root {n} : parent n = some n → Depth parent n 0
  | up {n q d} : parent n = some q → q ≠ n → Depth parent q d → Depth parent n (d + 1)

/-- `Work E c q t`: from the empty `ConnComp`, processing the edges `E` and asking for roots in between led
to the state `c`, with `q` calls of `get_root` that took `t` turns of its loop altogether. An edge takes two
calls (conn_comp.rs:121-122). -/
inductive Work : List (Id m × Id m) → ConnComp m → Nat → Nat → Prop
  | empty : Work [] ConnComp.empty 0 0
  | root {E c q t n u c' r} : Work E c q t → c.getRoot n = .ok (c', r) → Turns c.parent n u →
      Work E c' (q + 1) (t + u)
  | edge {E c q t x y c1 u1 r1 u2 c'} : Work E c q t →
      Turns ((c.register x).register y).parent x u1 →
      ((c.register x).register y).getRoot x = .ok (c1, r1) → Turns c1.parent y u2 →
      c.processEdge x y = .ok c' → Work (E ++ [(x, y)]) c' (q + 2) (t + u1 + u2)
  | rehash {E c q t p} : Work E c q t → c.parent.Perm p → Work E ⟨p, c.count⟩ q t

/-- The edges of the path `0 - 1 - … - n`, in this order. -/
def chainEdges (m n : Nat) : List (Id m × Id m) := (List.range n).map (fun i => (Id.new i, Id.new (i + 1)))

end Verif.Spec
