import Verif.Proof.Handshake
import Verif.Spec.Order
import Verif.Proof.Labels
import Verif.Props.GraphState
import Verif.Props.GraphHistory

/-! Calls that do not meet commute. -/

namespace Verif.Order

open Spec GraphMap

variable {m k : Nat} {NL EL : Type}

/-- Undirected edges have no orientation. -/
def Sym (d : Bool) (A : AGraph (Id m) NL EL) : Prop := d = false → ∀ s t, A.edge s t = A.edge t s

theorem unl_node (A : AGraph (Id m) NL EL) (n : Id m) (l : Option NL) (x : Id m) :
    (A.updateNodeLabel n l).node x = if x = n ∧ (A.node n).isSome then some l else A.node x := by
  unfold AGraph.updateNodeLabel AGraph.addNode
  split <;> simp_all

theorem unl_edge (A : AGraph (Id m) NL EL) (n : Id m) (l : Option NL) :
    (A.updateNodeLabel n l).edge = A.edge := by
  unfold AGraph.updateNodeLabel AGraph.addNode
  split <;> rfl

theorem uel_node (d : Bool) (A : AGraph (Id m) NL EL) (s t : Id m) (l : Option EL) :
    (A.updateEdgeLabel d s t l).node = A.node := by
  unfold AGraph.updateEdgeLabel
  split <;> rfl

theorem uel_edge (d : Bool) (A : AGraph (Id m) NL EL) (s t : Id m) (l : Option EL) (a b : Id m) :
    (A.updateEdgeLabel d s t l).edge a b =
      if AGraph.same d s t a b ∧ (A.edge s t).isSome then some l else A.edge a b := by
  unfold AGraph.updateEdgeLabel
  split <;> simp_all

theorem step_comm {d : Bool} {A : AGraph (Id m) NL EL} (hA : Sym d A) {a b : Op m k NL EL} (h : Apart d a b) :
    step d (step d A a) b = step d (step d A b) a := by
  obtain ⟨h1, h2⟩ := h
  cases a <;> cases b <;> first
    | exact absurd trivial h1
    | exact absurd trivial h2
    | rfl
    | (simp only [Meets] at h1 h2
       refine AGraph_ext (fun n => ?_) (fun s t => ?_) <;>
       simp only [step, unl_node, unl_edge, uel_node, uel_edge, AGraph.addNode, AGraph.removeNode, AGraph.addEdge,
         AGraph.removeEdge, AGraph.same, Sym] at * <;> grind)

theorem step_sym {d : Bool} {A : AGraph (Id m) NL EL} (hA : Sym d A) (a : Op m k NL EL) : Sym d (step d A a) := by
  intro hd
  have hA := hA hd
  intro s t
  cases a <;> simp only [step, unl_node, unl_edge, uel_node, uel_edge, AGraph.addNode, AGraph.removeNode, AGraph.addEdge,
         AGraph.removeEdge, AGraph.same] <;> grind

theorem run_sym (d : Bool) (ops : List (Op m k NL EL)) : Sym d (Spec.run d ops) := by
  induction ops using List.reverseRecOn with
  | nil => exact fun _ _ _ => rfl
  | append_singleton ops a ih =>
    unfold Spec.run
    rw [List.foldl_append]
    exact step_sym ih a

theorem surplus_comm {d : Bool} {A : AGraph (Id m) NL EL} (hA : Sym d A) {a b : Op m k NL EL} (h : Apart d a b) (n : Nat) :
    surplusStep d (surplusStep d (A, n) a) b = surplusStep d (surplusStep d (A, n) b) a := by
  refine Prod.ext (step_comm hA h) ?_
  obtain ⟨h1, h2⟩ := h
  unfold surplusStep
  cases a <;> cases b <;> first
    | exact absurd trivial h1
    | exact absurd trivial h2
    | rfl
    | (simp only [Meets] at h1 h2
       simp only [step, unl_node, unl_edge, uel_node, uel_edge, AGraph.addNode, AGraph.removeNode, AGraph.addEdge,
         AGraph.removeEdge, AGraph.same, Sym] at * <;> grind)

/-- The call does not panic on the graph. -/
def Fine (A : AGraph (Id m) NL EL) : Op m k NL EL → Prop
  | .removeNode n => A.edge n n = none
  | _ => True

theorem fine_comm {d : Bool} {A : AGraph (Id m) NL EL} {a b : Op m k NL EL} (h : Apart d a b) :
    Fine A a ∧ Fine (step d A a) b → Fine A b ∧ Fine (step d A b) a := by
  obtain ⟨h1, h2⟩ := h
  cases a <;> cases b <;> first
    | exact absurd trivial h1
    | exact absurd trivial h2
    | exact fun _ => ⟨trivial, trivial⟩
    | (simp only [Meets] at h1 h2
       simp only [Fine, step, unl_node, unl_edge, uel_node, uel_edge, AGraph.addNode, AGraph.removeNode, AGraph.addEdge,
         AGraph.removeEdge, AGraph.same, Sym] at * <;> grind)

/-- The call adds the label to the table of node labels. -/
def NamesNode (A : AGraph (Id m) NL EL) (x : NL) : Op m k NL EL → Prop
  | .addNode _ l => l = some x
  | .updateNodeLabel n l => l = some x ∧ (A.node n).isSome
  | .addNodeLabel l => l = some x
  | _ => False

/-- The call adds the label to the table of edge labels. -/
def NamesEdge (A : AGraph (Id m) NL EL) (x : EL) : Op m k NL EL → Prop
  | .addEdge _ _ l => l = some x
  | .updateEdgeLabel s t l => l = some x ∧ (A.edge s t).isSome
  | .addEdgeLabel l => l = some x
  | _ => False

theorem names_comm {d : Bool} {A : AGraph (Id m) NL EL} (hA : Sym d A) {a b : Op m k NL EL} (h : Apart d a b) :
    (∀ x, NamesNode A x a ∨ NamesNode (step d A a) x b → NamesNode A x b ∨ NamesNode (step d A b) x a) ∧
    ∀ x, NamesEdge A x a ∨ NamesEdge (step d A a) x b → NamesEdge A x b ∨ NamesEdge (step d A b) x a := by
  obtain ⟨h1, h2⟩ := h
  cases a <;> cases b <;> first
    | exact absurd trivial h1
    | exact absurd trivial h2
    | (simp only [Meets] at h1 h2
       simp only [NamesNode, NamesEdge, step, unl_node, unl_edge, uel_node, uel_edge, AGraph.addNode, AGraph.removeNode, AGraph.addEdge,
         AGraph.removeEdge, AGraph.same, Sym] at * <;> grind)

/-! ### Whole histories -/

/-- No call panics. -/
def Good (d : Bool) (A : AGraph (Id m) NL EL) : List (Op m k NL EL) → Prop
  | [] => True
  | a :: ops => Fine A a ∧ Good d (step d A a) ops

/-- Some call adds the node label. -/
def NodeNamed (d : Bool) (x : NL) (A : AGraph (Id m) NL EL) : List (Op m k NL EL) → Prop
  | [] => False
  | a :: ops => NamesNode A x a ∨ NodeNamed d x (step d A a) ops

/-- Some call adds the edge label. -/
def EdgeNamed (d : Bool) (x : EL) (A : AGraph (Id m) NL EL) : List (Op m k NL EL) → Prop
  | [] => False
  | a :: ops => NamesEdge A x a ∨ EdgeNamed d x (step d A a) ops

theorem good_append {d : Bool} : ∀ (xs ys : List (Op m k NL EL)) (A : AGraph (Id m) NL EL),
    Good d A (xs ++ ys) ↔ Good d A xs ∧ Good d (xs.foldl (step d) A) ys := by
  intro xs
  induction xs with
  | nil => intro ys A; simp [Good]
  | cons a xs ih => intro ys A; simp only [List.cons_append, Good, List.foldl_cons, ih, and_assoc]

theorem nodeNamed_append {d : Bool} {x : NL} : ∀ (xs ys : List (Op m k NL EL)) (A : AGraph (Id m) NL EL),
    NodeNamed d x A (xs ++ ys) ↔ NodeNamed d x A xs ∨ NodeNamed d x (xs.foldl (step d) A) ys := by
  intro xs
  induction xs with
  | nil => intro ys A; simp [NodeNamed]
  | cons a xs ih => intro ys A; simp only [List.cons_append, NodeNamed, List.foldl_cons, ih, or_assoc]

theorem edgeNamed_append {d : Bool} {x : EL} : ∀ (xs ys : List (Op m k NL EL)) (A : AGraph (Id m) NL EL),
    EdgeNamed d x A (xs ++ ys) ↔ EdgeNamed d x A xs ∨ EdgeNamed d x (xs.foldl (step d) A) ys := by
  intro xs
  induction xs with
  | nil => intro ys A; simp [EdgeNamed]
  | cons a xs ih => intro ys A; simp only [List.cons_append, EdgeNamed, List.foldl_cons, ih, or_assoc]

theorem surplus_fst (d : Bool) : ∀ (ops : List (Op m k NL EL)) (A : AGraph (Id m) NL EL) (n : Nat),
    (ops.foldl (surplusStep d) (A, n)).1 = ops.foldl (step d) A := by
  intro ops
  induction ops with
  | nil => intro A n; rfl
  | cons a ops ih =>
    intro A n
    rw [List.foldl_cons, List.foldl_cons]
    exact ih _ _

/-- What a history amounts to. -/
structure Alike (d : Bool) (ops ops' : List (Op m k NL EL)) : Prop where
  run : Spec.run d ops = Spec.run d ops'
  surplus : surplus d ops = surplus d ops'
  good : Good d AGraph.empty ops → Good d AGraph.empty ops'
  nodes : ∀ x : NL, NodeNamed d x AGraph.empty ops → NodeNamed d x AGraph.empty ops'
  edges : ∀ x : EL, EdgeNamed d x AGraph.empty ops → EdgeNamed d x AGraph.empty ops'
  perm : ops.Perm ops'

theorem alike_swap {d : Bool} (xs ys : List (Op m k NL EL)) {a b : Op m k NL EL} (h : Apart d a b) :
    Alike d (xs ++ a :: b :: ys) (xs ++ b :: a :: ys) := by
  have hs := run_sym d xs
  unfold Spec.run at hs
  have hc := step_comm hs h
  refine ⟨?_, ?_, ?_, ?_, ?_, List.Perm.append_left _ (.swap _ _ _)⟩
  · unfold Spec.run
    simp only [List.foldl_append, List.foldl_cons, hc]
  · unfold Spec.surplus
    simp only [List.foldl_append, List.foldl_cons]
    have := surplus_fst d xs AGraph.empty 0
    generalize xs.foldl (surplusStep d) (AGraph.empty, 0) = σ at this
    obtain ⟨B, n⟩ := σ
    simp only at this
    subst this
    rw [surplus_comm hs h]
  · simp only [good_append, Good, hc]
    rintro ⟨h1, h2, h3, h4⟩
    have := fine_comm h ⟨h2, h3⟩
    exact ⟨h1, this.1, this.2, h4⟩
  · intro x
    simp only [nodeNamed_append, NodeNamed, hc]
    have := (names_comm hs h).1 x
    tauto
  · intro x
    simp only [edgeNamed_append, EdgeNamed, hc]
    have := (names_comm hs h).2 x
    tauto

theorem alike_of_swapped {d : Bool} {ops ops' : List (Op m k NL EL)} (h : Swapped d ops ops') : Alike d ops ops' := by
  induction h with
  | refl => exact ⟨rfl, rfl, id, fun _ => id, fun _ => id, .refl _⟩
  | @swap xs ys _ _ h hab ih =>
    have h2 := alike_swap xs ys hab
    exact ⟨ih.run.trans h2.run, ih.surplus.trans h2.surplus, fun h => h2.good (ih.good h),
      fun x h => h2.nodes x (ih.nodes x h), fun x h => h2.edges x (ih.edges x h), ih.perm.trans h2.perm⟩

theorem swapped_trans {d : Bool} {a b c : List (Op m k NL EL)} (h : Swapped d a b) (h' : Swapped d b c) :
    Swapped d a c := by
  induction h' with
  | refl => exact h
  | swap _ hab ih => exact .swap ih hab

theorem swapped_symm {d : Bool} {a b : List (Op m k NL EL)} (h : Swapped d a b) : Swapped d b a := by
  induction h with
  | refl => exact .refl _
  | swap _ hab ih => exact swapped_trans (Swapped.swap (.refl _) ⟨hab.2, hab.1⟩) ih

theorem swapped_cons {d : Bool} {a b : List (Op m k NL EL)} (x : Op m k NL EL) (h : Swapped d a b) :
    Swapped d (x :: a) (x :: b) := by
  induction h with
  | refl => exact .refl _
  | @swap xs ys a b _ hab ih => exact Swapped.swap (xs := x :: xs) ih hab

theorem swapped_of_perm {d : Bool} {ops ops' : List (Op m k NL EL)} (h : ops.Perm ops') :
    ops.Pairwise (Apart d) → Swapped d ops ops' := by
  induction h with
  | nil => intro _; exact .refl _
  | cons x _ ih => intro hp; exact swapped_cons x (ih (List.pairwise_cons.1 hp).2)
  | swap x y l =>
    intro hp
    exact Swapped.swap (xs := []) (.refl _) ((List.pairwise_cons.1 hp).1 _ (by simp))
  | trans h1 _ ih1 ih2 =>
    intro hp
    exact swapped_trans (ih1 hp) (ih2 (hp.perm h1 (fun {_ _} h => ⟨h.2, h.1⟩)))

variable [DecidableEq NL] [DecidableEq EL]

theorem mem_named {X : Type} [DecidableEq X] (U : List X) (l : Option X) (x : X) :
    x ∈ named U l ↔ x ∈ U ∨ l = some x := by
  cases l with
  | none => simp [named]
  | some y => unfold named; split <;> simp <;> grind

theorem run_tables {d : Bool} {nl : SetMap NL} {el : SetMap EL} (hn : nl.labels.Nodup)
    (he : el.labels.Nodup) {ops : List (Op m k NL EL)} {g : GraphMap m k NL EL}
    (h : Run (withLabelMap d nl el) ops g) :
    (∀ x, x ∈ g.nodeLabels.labels ↔ x ∈ nl.labels ∨ NodeNamed d x AGraph.empty ops) ∧
    ∀ x, x ∈ g.edgeLabels.labels ↔ x ∈ el.labels ∨ EdgeNamed d x AGraph.empty ops := by
  induction h with
  | nil => exact ⟨fun x => by simp [NodeNamed, withLabelMap], fun x => by simp [EdgeNamed, withLabelMap]⟩
  | rehash _ _ ih => exact ih
  | @step ops op g g' hr h ih =>
    obtain ⟨hd, hs1, hs2⟩ := run_shape hn he hr
    have ht := tabled_apply (inv_run (inv_withLabelMap d nl el hn he) hr) h
    rw [hd] at ht
    have e1 : g'.nodeLabels.labels = (Tabled.step d g.tabled op).nodes := congrArg Tabled.nodes ht
    have e2 : g'.edgeLabels.labels = (Tabled.step d g.tabled op).edges := congrArg Tabled.edges ht
    have t1 : ∀ n, (g.tabled.graph.node n).isSome = ((Spec.run d ops).node n).isSome := hs1
    have t2 : ∀ s t, (g.tabled.graph.edge s t).isSome = ((Spec.run d ops).edge s t).isSome := hs2
    have t3 : g.tabled.nodes = g.nodeLabels.labels := rfl
    have t4 : g.tabled.edges = g.edgeLabels.labels := rfl
    generalize g.tabled = T at *
    have hrun : ops.foldl (step d) AGraph.empty = Spec.run d ops := rfl
    generalize Spec.run d ops = A at *
    have f1 : ∀ x, x ∈ (T.step d op).nodes ↔ x ∈ T.nodes ∨ NamesNode A x op := by
      intro x
      cases op <;> simp only [Tabled.step, NamesNode, or_false, mem_named] <;> split <;> simp_all [mem_named]
    have f2 : ∀ x, x ∈ (T.step d op).edges ↔ x ∈ T.edges ∨ NamesEdge A x op := by
      intro x
      cases op <;> simp only [Tabled.step, NamesEdge, or_false, mem_named] <;> split <;> simp_all [mem_named]
    refine ⟨fun x => ?_, fun x => ?_⟩
    · rw [e1, f1, t3, ih.1, nodeNamed_append, hrun]
      simp only [NodeNamed, or_false, or_assoc]
    · rw [e2, f2, t4, ih.2, edgeNamed_append, hrun]
      simp only [EdgeNamed, or_false, or_assoc]

theorem run_good {d : Bool} {nl : SetMap NL} {el : SetMap EL} (hn : nl.labels.Nodup)
    (he : el.labels.Nodup) {ops : List (Op m k NL EL)} {g : GraphMap m k NL EL}
    (h : Run (withLabelMap d nl el) ops g) : Good d AGraph.empty ops := by
  induction h with
  | nil => trivial
  | rehash _ _ ih => exact ih
  | @step ops op g g' hr h ih =>
    refine (good_append _ _ _).2 ⟨ih, ?_, trivial⟩
    cases op <;> try trivial
    case removeNode n =>
      obtain ⟨r, h1, -⟩ := bind_eq_ok h
      have h2 := ((Props.c59_remove_node_panics_iff (Run.reachable hn he hr) n).2.1 ⟨r, h1⟩)
      rw [Props.c06_has_edge hn he hr] at h2
      show (Spec.run d ops).edge n n = none
      simpa using h2

theorem good_exec {d : Bool} {nl : SetMap NL} {el : SetMap EL} (hn : nl.labels.Nodup)
    (he : el.labels.Nodup) (ops : List (Op m k NL EL)) (hl : ∀ op ∈ ops, labelOnly op = true)
    (h : Good d AGraph.empty ops) : ∃ g, (withLabelMap d nl el).exec ops = .ok g := by
  induction ops using List.reverseRecOn with
  | nil => exact ⟨_, rfl⟩
  | append_singleton ops op ih =>
    obtain ⟨h1, h2, -⟩ := (good_append _ _ _).1 h
    obtain ⟨g, hg⟩ := ih (fun o ho => hl o (by simp [ho])) h1
    have hr := exec_run hg
    have hop := hl op (by simp)
    obtain ⟨g', hg'⟩ := Props.c13_mutators_partial (Run.reachable hn he hr) op
      (fun n e => by
        subst e
        have h2 : (Spec.run d ops).edge n n = none := h2
        rw [Props.c06_has_edge hn he hr, h2]; rfl)
      (fun n l e => by subst e; exact absurd hop (by simp [labelOnly]))
      (fun s t l e => by subst e; exact absurd hop (by simp [labelOnly]))
    exact ⟨g', by rw [exec_append, hg, bind_ok]; unfold exec; rw [List.foldlM_cons, hg', bind_ok]; rfl⟩

end Verif.Order
