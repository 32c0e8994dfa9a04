import Verif.Model.Xml

/-! # Specification of reading XML (C63) -/

namespace Mabel.Xml.Spec
open Mabel.Py Mabel.Dates Mabel.Xml

/-- One thing a document says: there is an element with this path of tags; the element there has this attribute; the
element there has this text. -/
inductive Fact
  | element (path : List Str)
  | attribute (path : List Str) (name value : Str)
  | text (path : List Str) (s : Str)
  deriving DecidableEq, Repr

/-- Blank text says nothing. -/
def said (p : List Str) (s : Str) : List Fact := if strip s = [] then [] else [.text p (strip s)]

mutual
/-- What an element inside the element `p` says. -/
def facts (p : List Str) : Xml → List Fact
  | .el tag attrs text children tail =>
    [.element (p ++ [tag])] ++ attrs.map (fun a => .attribute (p ++ [tag]) a.1 a.2) ++ said (p ++ [tag]) (text.getD []) ++
      factsIn (p ++ [tag]) children ++ said p (tail.getD [])

def factsIn (p : List Str) : List Xml → List Fact
  | [] => []
  | c :: cs => facts p c ++ factsIn p cs
end

mutual
/-- The texts that come after an element. -/
def tails (p : List Str) : Xml → List Fact
  | .el tag _ _ children tail => tailsIn (p ++ [tag]) children ++ said p (tail.getD [])

def tailsIn (p : List Str) : List Xml → List Fact
  | [] => []
  | c :: cs => tails p c ++ tailsIn p cs
end

/-- An attribute has a text. -/
def readAttribute (p : List Str) (name : Str) : XVal → List Fact
  | .text s => [.attribute p name s]
  | _ => []

def readText (p : List Str) : XVal → List Fact
  | .text s => said p s
  | _ => []

mutual
/-- What a value says when it is the value of the element `p`. -/
def read (p : List Str) : XVal → List Fact
  | .none => [.element p]
  | .text s => .element p :: said p s
  | .dict d => .element p :: readDict p d
  | .list l => readList p l

/-- The entries of a dictionary: `@name` is an attribute, `#text` is text, and everything else is a child element. -/
def readDict (p : List Str) : List (Str × XVal) → List Fact
  | [] => []
  | (k, v) :: rest =>
    (if k.head? = some '@' then readAttribute p (k.drop 1) v
    else if k = "#text".toList then readText p v
    else read (p ++ [k]) v) ++ readDict p rest

/-- A list: an element for each member. -/
def readList (p : List Str) : List XVal → List Fact
  | [] => []
  | v :: rest => read p v ++ readList p rest
end

/-- A name as XML has them: it does not begin with `@` or `#`. -/
def IsName (k : Str) : Prop := k.head? ≠ some '@' ∧ k.head? ≠ some '#'

mutual
/-- What every XML document satisfies: names are names; an element has each attribute once. -/
def Wf : Xml → Prop
  | .el tag attrs _ children _ => IsName tag ∧ (attrs.map Prod.fst).Nodup ∧ WfIn children

def WfIn : List Xml → Prop
  | [] => True
  | c :: cs => Wf c ∧ WfIn cs
end

/-- The name without its namespace, which is written `{namespace}name`. -/
def localName (k : Str) : Str := if k.head? = some '{' then (k.dropWhile (· ≠ '}')).drop 1 else k

def Fact.local : Fact → Fact
  | .element p => .element (p.map localName)
  | .attribute p k v => .attribute (p.map localName) (localName k) v
  | .text p s => .text (p.map localName) s

/-- A name that may have a namespace: `name` or `{namespace}name`, where the name does not begin with `{`, `@` or `#`. -/
def IsQName (k : Str) : Prop :=
  (k.head? = some '{' → '}' ∈ k) ∧ (localName k).head? ≠ some '{' ∧ IsName (localName k)

/-- Different names remain different without their namespaces. -/
def Apart (l : List Str) : Prop := ∀ a ∈ l, ∀ b ∈ l, localName a = localName b → a = b

mutual
/-- In every element, the children's different tags, and the attributes, remain different without namespaces. -/
def ApartIn : Xml → Prop
  | .el tag attrs _ children _ => IsQName tag ∧ (∀ a ∈ attrs, IsQName a.1) ∧
    Apart (attrs.map Prod.fst) ∧ Apart (children.map Xml.tag) ∧ ApartAll children

def ApartAll : List Xml → Prop
  | [] => True
  | c :: cs => ApartIn c ∧ ApartAll cs
end

end Mabel.Xml.Spec
