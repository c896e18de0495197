import Verif.Model.Csv

/-!
LDBC social network data: `/repo/src/io/ldbc/`.

Simplifications: names of files are texts (`to_str().unwrap()` of scheme.rs and node.rs:53 panics for others);
the directory can be read, and so can its files; subdirectories are left out of the listing, as in
scheme.rs:206-208. What counts as a digit in a file name (`\d` knows more than ASCII) and which bytes are
UTF-8 are parameters.
-/

namespace Verif

namespace Ldbc

/-- `[_\d]*.csv` from the start of a text; what follows it does not matter. -/
def tailMatches (digit : Char → Bool) : List Char → Bool
  | [] => false
  | c :: r => (decide (c ≠ '\n') && ['c', 's', 'v'].isPrefixOf r) ||
      ((decide (c = '_') || digit c) && tailMatches digit r)

/-- `start[_\d]*.csv` from the start of a text. -/
def startMatches (digit : Char → Bool) (start : String) (s : List Char) : Bool :=
  start.toList.isPrefixOf s && tailMatches digit (s.drop start.toList.length)

/-- `Node` (node.rs:30-36). -/
structure Node where
  name : String
  idIndex : Nat
  labelIndex : Nat
  start : String
  deriving DecidableEq, Repr

/-- `Node::is_match` (node.rs:48-52): the expression of node.rs:44 is anchored at the start. -/
def Node.isMatch (digit : Char → Bool) (n : Node) (file : String) : Bool :=
  startMatches digit n.start file.toList

/-- `Relation` (relation.rs:30-38). -/
structure Relation where
  startLabel : String
  targetLabel : String
  edgeLabel : String
  startIndex : Nat
  targetIndex : Nat
  start : String
  deriving DecidableEq, Repr

/-- `Relation::is_match` (relation.rs:60-64): the expression of relation.rs:55 is not anchored. -/
def Relation.isMatch (digit : Char → Bool) (r : Relation) (file : String) : Bool :=
  file.toList.tails.any (startMatches digit r.start)

/-- A record (`StringRecord`). -/
abbrev Record := List (List Byte)

/-- Text of `String` type. -/
abbrev Text := List Byte

/-- `record[i]`. -/
def field (r : Record) (i : Nat) : Res Text :=
  match r[i]? with
  | some f => pure f
  | none => .error .indexOutOfBounds

/-- The graph being built and `node_id_map`. -/
structure State (m k : Nat) where
  graph : GraphMap m k Text Text
  ids : List (Text × Id m)

section

variable {m k : Nat}

/-- The id for the next node (node.rs:62-67, relation.rs:76-80). -/
def nextId (g : GraphMap m k Text Text) : Res (Id m) :=
  match g.maxSeenId with
  | some i => i.increment
  | none => pure (Id.new 0)

/-- `Node::add_node` (node.rs:54-71). -/
def Node.addNode (n : Node) (r : Record) (s : State m k) : Res (State m k) := do
  let f ← field r n.idIndex
  let key := ascii n.name ++ f
  let p ← (match AL.get s.ids key with
    | some i => pure (i, s.ids)
    | none => do
      let i ← nextId s.graph
      pure (i, AL.hinsert s.ids key i) : Res (Id m × List (Text × Id m)))
  let l ← field r n.labelIndex
  let q ← s.graph.addNode p.1 (some l)
  pure ⟨q.1, p.2⟩

/-- `entry(key).or_insert_with(..)` of relation.rs:75-84 and 86-95: the id of the node with this key, which
is added with its kind as label if it is new. -/
def entry (key : Text) (kind : String) (s : State m k) : Res (State m k × Id m) :=
  match AL.get s.ids key with
  | some i => pure (s, i)
  | none => do
    let i ← nextId s.graph
    let q ← s.graph.addNode i (some (ascii kind))
    pure (⟨q.1, AL.hinsert s.ids key i⟩, i)

/-- `Relation::add_edge` (relation.rs:66-98). -/
def Relation.addEdge (r : Relation) (rec : Record) (s : State m k) : Res (State m k) := do
  let a ← field rec r.startIndex
  let b ← field rec r.targetIndex
  let p ← entry (ascii r.startLabel ++ a) r.startLabel s
  let q ← entry (ascii r.targetLabel ++ b) r.targetLabel p.1
  let e ← q.1.graph.addEdge p.2 q.2 (some (ascii r.edgeLabel))
  pure { q.1 with graph := e.1 }

end

/-- A file of the directory. -/
structure File where
  name : String
  bytes : List Byte

/-- What the iterator of `rdr.records()` gives (scheme.rs:225-229): the records after the header; `none` is an
error, for a record of another length than the header or with bytes that are not UTF-8. -/
def records (utf8 : Text → Bool) (sep : Byte) (bytes : List Byte) : List (Option Record) :=
  match Csv.parse sep bytes with
  | [] => []
  | h :: rs => rs.map (fun r => if r.length = h.length ∧ r.all utf8 = true then some r else none)

section

variable {S X : Type}

/-- `for result in rdr.records() { let record = result?; .. }` (scheme.rs:225-229, 243-247): `none` is an
early return with an error. -/
def feed (f : Record → S → Res S) : List (Option Record) → S → Res (Option S)
  | [], s => pure (some s)
  | none :: _, _ => pure none
  | some r :: rs, s => do
    let s ← f r s
    feed f rs s

/-- A loop whose body may return early. -/
def loop (f : X → S → Res (Option S)) : List X → S → Res (Option S)
  | [], s => pure (some s)
  | x :: xs, s => do
    match ← f x s with
    | none => pure none
    | some s => loop f xs s

end

/-- `Scheme` (scheme.rs:33-38). -/
structure Scheme where
  relations : List Relation
  nodes : List Node
  delimiter : Byte

/-- `Scheme::init` (scheme.rs:41-191). -/
def Scheme.init : Scheme where
  nodes := [⟨"organisation", 0, 1, "organisation_"⟩, ⟨"place", 0, 3, "place_"⟩]
  relations :=
    [⟨"comment", "person", "hasCreator", 0, 1, "comment_hasCreator_person_"⟩,
     ⟨"comment", "tag", "hasTag", 0, 1, "comment_hasTag_tag_"⟩,
     ⟨"comment", "place", "isLocatedIn", 0, 1, "comment_isLocatedIn_place_"⟩,
     ⟨"comment", "comment", "replyOf", 0, 1, "comment_replyOf_comment_"⟩,
     ⟨"comment", "post", "replyOf", 0, 1, "comment_replyOf_post_"⟩,
     ⟨"forum", "post", "containerOf", 0, 1, "forum_containerOf_post_"⟩,
     ⟨"forum", "post", "containerOf", 0, 1, "forum_containerOf_post_"⟩,
     ⟨"forum", "person", "hasMember", 0, 1, "forum_hasMember_person_"⟩,
     ⟨"forum", "person", "hasModerator", 0, 1, "forum_hasModerator_person_"⟩,
     ⟨"forum", "person", "hasModerator", 0, 1, "forum_hasModerator_person_"⟩,
     ⟨"forum", "tag", "hasTag", 0, 1, "forum_hasTag_tag_"⟩,
     ⟨"organisation", "place", "isLocatedIn", 0, 1, "organisation_isLocatedIn_place_"⟩,
     ⟨"person", "tag", "hasInterest", 0, 1, "person_hasInterest_tag_"⟩,
     ⟨"person", "place", "isLocatedIn", 0, 1, "person_isLocatedIn_place_"⟩,
     ⟨"person", "person", "knows", 0, 1, "person_knows_person_"⟩,
     ⟨"person", "comment", "likes", 0, 1, "person_likes_comment_"⟩,
     ⟨"person", "post", "likes", 0, 1, "person_likes_post_"⟩,
     ⟨"person", "organisation", "studyAt", 0, 1, "person_studyAt_organisation_"⟩,
     ⟨"person", "organisation", "workAt", 0, 1, "person_workAt_organisation_"⟩,
     ⟨"place", "place", "isPartOf", 0, 1, "place_isPartOf_place_"⟩,
     ⟨"post", "person", "hasCreator", 0, 1, "post_hasCreator_person_"⟩,
     ⟨"post", "tag", "hasTag", 0, 1, "post_hasTag_tag_"⟩,
     ⟨"post", "place", "isLocatedIn", 0, 1, "post_isLocatedIn_place_"⟩,
     ⟨"tag", "tagclass", "hasType", 0, 1, "tag_hasType_tagclass_"⟩,
     ⟨"tagclass", "tagclass", "isSubclassOf", 0, 1, "tagclass_isSubclassOf_tagclass_"⟩]
  delimiter := 124

/-- `Scheme::from_path` (scheme.rs:193-253): `dir` is the list of the files of the directory in the order
`read_dir` gives them, or `none` if the path is no directory; the result `none` is an error. -/
def Scheme.fromPath {m k : Nat} (digit : Char → Bool) (utf8 : Text → Bool) (s : Scheme) (directed : Bool)
    (dir : Option (List File)) : Res (Option (GraphMap m k Text Text)) :=
  match dir with
  | none => .error .explicit
  | some files => do
    let s1 ← loop (fun (n : Node) =>
      loop (fun (f : File) st =>
        if n.isMatch digit f.name then feed n.addNode (records utf8 s.delimiter f.bytes) st
        else pure (some st)) files) s.nodes (⟨GraphMap.new directed, []⟩ : State m k)
    match s1 with
    | none => pure none
    | some s1 => do
      let s2 ← loop (fun (r : Relation) =>
        loop (fun (f : File) st =>
          if r.isMatch digit f.name then feed r.addEdge (records utf8 s.delimiter f.bytes) st
          else pure (some st)) files) s.relations s1
      pure (s2.map (·.graph))

/-- `read_ldbc_from_path` (mod.rs:31-35). -/
def readFromPath {m k : Nat} (digit : Char → Bool) (utf8 : Text → Bool) (directed : Bool)
    (dir : Option (List File)) : Res (GraphMap m k Text Text) := do
  match ← Scheme.init.fromPath digit utf8 directed dir with
  | some g => pure g
  | none => .error .unwrapNone

end Ldbc

end Verif
