import Verif.Model.Xml
import Verif.Model.Readers
/-!
`flattentool/sort_xml.py` `XMLSchemaWalker`: the order of elements given by XML schemas.
-/
namespace Verif.Xsd
open Verif

/-- An element of a parsed XML schema file.  Simplification: comments and processing instructions (which `find` skips, but
which count for the truth value of an lxml element) are not in the tree; tags are in the form `{namespace}name`. -/
inductive Node where
  | mk (tag : Str) (attrs : List (Str × Str)) (children : List Node)

def Node.tag : Node → Str | .mk t _ _ => t
def Node.attrs : Node → List (Str × Str) | .mk _ a _ => a
def Node.children : Node → List Node | .mk _ _ c => c
def Node.attr (n : Node) (k : Str) : Option Str := Dict.get n.attrs k

/-- sort_xml.py:47 `namespaces`: `xsd:name`. -/
def xsd (name : Str) : Str := s%"{http://www.w3.org/2001/XMLSchema}" ++ name

/-- `Element.findall` for a path of tags. -/
def findAll : List Str → Node → List Node
  | [], n => [n]
  | t :: ts, n => (n.children.filter (fun c => c.tag = t)).flatMap (findAll ts)

/-- sort_xml.py:64-81 `get_schema_element`: in the first schema that has it, the first child with this tag and name.
Simplification: names are not parsed as part of an XPath (they contain no quotes). -/
def getElement (schemas : List Node) (tag name : Str) : Option Node :=
  schemas.findSome? (fun s => s.children.find? (fun c => c.tag = xsd tag && c.attr s%"name" = some name))

/-- sort_xml.py:95-97: the elements of a complex type (choices first, then sequences). -/
def typeGroups (ct : Node) : List Node :=
  findAll [xsd s%"choice", xsd s%"element"] ct ++ findAll [xsd s%"sequence", xsd s%"element"] ct

/-- `xsd:complexContent/xsd:extension`, if there is one and it has children (`if extension:` is the truth value of an
lxml element; sort_xml.py:86-89). -/
def extensionOf (ct : Node) : Option Node :=
  match (findAll [xsd s%"complexContent", xsd s%"extension"] ct).head? with
  | some x => if x.children.isEmpty then none else some x
  | none => none

/-- sort_xml.py:83-98 `handle_complexType`.  For an extension the variable `complexType` is rebound to the base type, so
that the base type's elements are listed (twice) and the extension's own are not; a base that is not found (or no `base`
attribute) raises `AttributeError`.  `fuel` bounds the recursion (`RecursionError`). -/
def handleType (schemas : List Node) : Nat → Option Node → Except Err (List Node)
  | _, none => .ok []
  | 0, some _ => .error .recursion
  | fuel + 1, some ct =>
    match extensionOf ct with
    | none => .ok (typeGroups ct)
    | some x =>
      match (x.attr s%"base").bind (getElement schemas s%"complexType") with
      | none => .error .attr
      | some b =>
        match handleType schemas fuel (some b) with
        | .error e => .error e
        | .ok l => .ok (l ++ typeGroups b)

/-- sort_xml.py:104-121: the declarations of the children of an element. -/
def childDecls (schemas : List Node) (fuel : Nat) (el : Node) : Except Err (List Node) :=
  let own := findAll [xsd s%"complexType", xsd s%"choice", xsd s%"element"] el
    ++ findAll [xsd s%"complexType", xsd s%"sequence", xsd s%"element"] el
    ++ findAll [xsd s%"complexType", xsd s%"all", xsd s%"element"] el
  match el.attr s%"type" with
  | none => .ok own
  | some t =>
    match handleType schemas fuel (getElement schemas s%"complexType" t) with
    | .error e => .error e
    | .ok l => .ok (own ++ l)

/-- sort_xml.py:123-132: the name of a child, and its declaration unless it is a reference.  Neither `name` nor `ref`
raises `KeyError`. -/
def childName (c : Node) : Except Err (Str × Option Node) :=
  match c.attr s%"name" with
  | some n => .ok (n, some c)
  | none =>
    match c.attr s%"ref" with
    | some r => .ok (r, none)
    | none => .error .key

/-- A function that can fail on the elements of a list. -/
def mapE {α β : Type} (f : α → Except Err β) : List α → Except Err (List β)
  | [] => .ok []
  | a :: r =>
    match f a with
    | .error e => .error e
    | .ok b =>
      match mapE f r with
      | .error e => .error e
      | .ok bs => .ok (b :: bs)

/-- sort_xml.py:100-133 `element_loop` (occurrence bounds are not used). -/
def elementLoop (schemas : List Node) (fuel : Nat) (el : Node) : Except Err (List (Str × Option Node)) :=
  match childDecls schemas fuel el with
  | .error e => .error e
  | .ok l => mapE childName l

/-- sort_xml.py:135-150 `create_schema_dict`.  `fuel` bounds the recursion (`RecursionError`). -/
def schemaDict (schemas : List Node) : Nat → Str → Option Node → Except Err Xml.Order
  | 0, _, _ => .error .recursion
  | fuel + 1, name, el =>
    match el <|> getElement schemas s%"element" name with
    | none => .ok (.mk [])
    | some e =>
      match elementLoop schemas fuel e with
      | .error e => .error e
      | .ok cs =>
        match mapE (fun c => (schemaDict schemas fuel c.1 c.2).map (fun o => (c.1, o))) cs with
        | .error e => .error e
        | .ok es => .ok (.mk (dictOf es))

end Verif.Xsd
