import Verif.Spec.Ldbc

/-! The files of LDBC's generator: what their names say they hold. -/

namespace Verif.Spec

open Ldbc

/-- Source, relation and target of the relation files, as they are in the names. -/
def triples : List (String × String × String) :=
  [("comment", "hasCreator", "person"), ("comment", "hasTag", "tag"), ("comment", "isLocatedIn", "place"),
   ("comment", "replyOf", "comment"), ("comment", "replyOf", "post"), ("forum", "containerOf", "post"),
   ("forum", "hasMember", "person"), ("forum", "hasModerator", "person"), ("forum", "hasTag", "tag"),
   ("organisation", "isLocatedIn", "place"), ("person", "hasInterest", "tag"), ("person", "isLocatedIn", "place"),
   ("person", "knows", "person"), ("person", "likes", "comment"), ("person", "likes", "post"),
   ("person", "studyAt", "organisation"), ("person", "workAt", "organisation"), ("place", "isPartOf", "place"),
   ("post", "hasCreator", "person"), ("post", "hasTag", "tag"), ("post", "isLocatedIn", "place"),
   ("tag", "hasType", "tagclass"), ("tagclass", "isSubclassOf", "tagclass")]

/-- The start of the name of a relation file. -/
def tripleStart (x : String × String × String) : String := x.1 ++ "_" ++ x.2.1 ++ "_" ++ x.2.2 ++ "_"

/-- The kinds that have files of their own. -/
def ownFiles : List String := ["comment", "forum", "organisation", "person", "place", "post", "tag", "tagclass"]

/-- Files with several values for one person. -/
def listFiles : List String := ["person_email_emailaddress_", "person_speaks_language_"]

/-- The starts of all names. -/
def generated : List String := triples.map tripleStart ++ ownFiles.map (· ++ "_") ++ listFiles

/-- What a row of a relation file says: the first column has the source, the second the target. -/
def tripleEvent (x : String × String × String) (r : Record) : Event :=
  .edge (ascii x.1 ++ r.getD 0 []) (ascii x.1) (ascii x.2.2 ++ r.getD 1 []) (ascii x.2.2) (ascii x.2.1)

end Verif.Spec
