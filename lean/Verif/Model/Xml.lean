import Verif.Model.Flatten
/-!
`flattentool/xml_output.py` (with lxml), `flattentool/sort_xml.py` `sort_element`, and
`json_input.py` `list_dict_consistency`.
-/
namespace Verif.Xml

/-- An XML element. -/
inductive Elem where
  | mk (tag : Str) (attrib : List (Str × Str)) (text : Option Str) (children : List Elem)

def Elem.tag : Elem → Str | .mk t _ _ _ => t
def Elem.attrib : Elem → List (Str × Str) | .mk _ a _ _ => a
def Elem.text : Elem → Option Str | .mk _ _ t _ => t
def Elem.children : Elem → List Elem | .mk _ _ _ c => c

/-- Insertion into a list sorted by key (`sorted(attribs)`; the keys of a dict are
distinct, so values are never compared). -/
def insertKey {α : Type} (x : Str × α) : List (Str × α) → List (Str × α)
  | [] => [x]
  | y :: r => if le x.1 y.1 then x :: y :: r else y :: insertKey x r
where
  le : Str → Str → Bool
  | [], _ => true
  | _ :: _, [] => false
  | a :: as, b :: bs => if a = b then le as bs else decide (a.toNat < b.toNat)

def sortKeys {α : Type} : List (Str × α) → List (Str × α)
  | [] => []
  | x :: r => insertKey x (sortKeys r)

/-- xml_output.py:30-35 `sort_attributes`. -/
def sortAttributes {α : Type} (data : List (Str × α)) : List (Str × α) :=
  sortKeys (data.filter (fun p => Py.startsWith s%"@" p.1)) ++
    data.filter (fun p => !Py.startsWith s%"@" p.1)

/-- `s.split(":", 1)` when there is a colon. -/
def splitColon : Str → Option (Str × Str)
  | [] => none
  | c :: cs => if c = ':' then some ([], cs) else (splitColon cs).map (fun p => (c :: p.1, p.2))

/-- Qualified name: `{uri}local` (xml_output.py:50-57, 69-75). -/
def qualify (nsmap : List (Str × Str)) (name : Str) : Str :=
  match splitColon name with
  | none => name
  | some (p, l) => '{' :: ((Dict.get nsmap p).getD [] ++ '}' :: l)

/-- Accumulator of `dict_to_xml`: child elements, attributes, text, namespaces. -/
structure Acc where
  children : List Elem := []
  attrib : List (Str × Str) := []
  text : Option Str := none
  nsmap : List (Str × Str) := []

/-- xml_output.py:44-65: a scalar entry. -/
def scalarEntry (key : Str) (a : Atom) (acc : Acc) : Except Err Acc :=
  if Py.startsWith s%"@" key then
    if Py.startsWith s%"@xmlns" key then
      match splitColon (key.drop 1) with
      | some (_, ns) => .ok { acc with nsmap := Dict.set acc.nsmap ns (Py.str a) }
      | none => .error .index
    else .ok { acc with attrib := Dict.set acc.attrib (qualify acc.nsmap (key.drop 1)) (Py.str a) }
  else if key = s%"text()" then
    .ok (if (Py.str a).isEmpty then acc else { acc with text := some (Py.str a) })
  else .error .value

mutual
/-- xml_output.py:68-113 `dict_to_xml` on the sorted entries.  `valid` says whether lxml
accepts the tag and attribute names (an invalid one is reported and the element
dropped). -/
def entries (valid : Str → List (Str × Str) → Bool) : List (Str × Json) → Acc → Except Err Acc
  | [], acc => .ok acc
  | (k, v) :: r, acc =>
    match entry valid k v acc with
    | .error e => .error e
    | .ok acc => entries valid r acc
/-- xml_output.py:86-97: one entry. -/
def entry (valid : Str → List (Str × Str) → Bool) (k : Str) : Json → Acc → Except Err Acc
  | .arr l, acc => listEntry valid k l acc
  | .obj fs, acc =>
    let tag := if Py.startsWith s%"@xmlns" k then k else qualify acc.nsmap k
    match entries valid fs { nsmap := acc.nsmap } with
    | .error e => .error e
    | .ok sub =>
      .ok { acc with
        nsmap := sub.nsmap,
        children := if valid tag sub.attrib
          then acc.children ++ [.mk tag sub.attrib sub.text sub.children] else acc.children }
  | .leaf a, acc => scalarEntry k a acc
/-- xml_output.py:88-91: the items of a list.  Simplification: a list in a list is an error here also if
the key is an attribute or `text()` (the code would write the list's `str`). -/
def listEntry (valid : Str → List (Str × Str) → Bool) (k : Str) : List Json → Acc → Except Err Acc
  | [], acc => .ok acc
  | .arr _ :: _, _ => .error .value
  | .leaf a :: r, acc =>
    match scalarEntry k a acc with
    | .error e => .error e
    | .ok acc => listEntry valid k r acc
  | .obj fs :: r, acc =>
    let tag := if Py.startsWith s%"@xmlns" k then k else qualify acc.nsmap k
    match entries valid fs { nsmap := acc.nsmap } with
    | .error e => .error e
    | .ok sub =>
      listEntry valid k r { acc with
        nsmap := sub.nsmap,
        children := if valid tag sub.attrib
          then acc.children ++ [.mk tag sub.attrib sub.text sub.children] else acc.children }
end

mutual
/-- `data = sort_attributes(data)` at every level (xml_output.py:77-78), done first. -/
def sortAll : List (Str × Json) → List (Str × Json)
  | [] => []
  | (k, v) :: r => (k, sortJson v) :: sortAll r
def sortJson : Json → Json
  | .leaf a => .leaf a
  | .obj fs => .obj (sortAttributes (sortAll fs))
  | .arr l => .arr (sortItems l)
def sortItems : List Json → List Json
  | [] => []
  | j :: r => sortJson j :: sortItems r
end

/-- xml_output.py:68-113 `dict_to_xml` on the root. -/
def dictToXml (valid : Str → List (Str × Str) → Bool) (data : List (Str × Json)) (tag : Str)
    (nsmap : List (Str × Str)) : Except Err (Option Elem) :=
  let tag := qualify nsmap tag
  match entries valid (sortAttributes (sortAll data)) { nsmap } with
  | .error e => .error e
  | .ok a => .ok (if valid tag a.attrib then some (.mk tag a.attrib a.text a.children) else none)

/-! #### Sorting by schema -/

/-- The nested dict of element names made by `create_schema_dict`. -/
inductive Order where
  | mk (entries : List (Str × Order))

def Order.entries : Order → List (Str × Order) | .mk e => e

/-- sort_xml.py:162-166 `index_key`. -/
def rank (keys : List Str) (tag : Str) : Nat :=
  if tag ∈ keys then keys.idxOf tag else keys.length + 1

/-- Stable insertion by rank. -/
def insertRank (keys : List Str) (x : Elem) : List Elem → List Elem
  | [] => [x]
  | y :: r => if rank keys x.tag ≤ rank keys y.tag then x :: y :: r else y :: insertRank keys x r

/-- `sorted(children, key=index_key)` (stable). -/
def sortRank (keys : List Str) : List Elem → List Elem
  | [] => []
  | x :: r => insertRank keys x (sortRank keys r)

mutual
/-- sort_xml.py:153-170 `sort_element`.  Simplification: the children are sorted
recursively before, instead of after, they are put in order (the order only depends on
their tags). -/
def sortElement (o : Order) : Elem → Elem
  | .mk t a x cs => .mk t a x (sortRank (Dict.keys o.entries) (sortChildren o cs))
def sortChildren (o : Order) : List Elem → List Elem
  | [] => []
  | c :: r => sortElement ((Dict.get o.entries c.tag).getD (.mk [])) c :: sortChildren o r
end

/-- xml_output.py:116-141 `toxml`, without the comment and the text form.  `order` is the schema
dict, if there are schemas (reading the schemas is not modelled).  If the root element is not valid,
`root` is None, and using it raises. -/
def toXml (valid : Str → List (Str × Str) → Bool) (data : List (Str × Json)) (tag : Str)
    (order : Option Order) : Except Err Elem :=
  match dictToXml valid data tag [(s%"xml", s%"http://www.w3.org/XML/1998/namespace")] with
  | .error e => .error e
  | .ok none => .error .type
  | .ok (some e) => .ok (match order with
    | none => e
    | some o => .mk e.tag e.attrib e.text (e.children.map (sortElement o)))

/-! #### XML input: lists and dicts -/

/-- `isinstance(x, dict)`. -/
def isObj : Json → Bool
  | .obj _ => true
  | _ => false

/-- `isinstance(value, list) and value and isinstance(value[0], dict)`. -/
def isListOfDicts : List Json → Bool
  | j :: _ => isObj j
  | [] => false

mutual
/-- json_input.py:79-89 `lists_of_dicts_paths`. -/
def listPaths : List (Str × Json) → List (List Str)
  | [] => []
  | (k, .arr l) :: r =>
    (if isListOfDicts l then [k] :: (itemPaths l).map (k :: ·) else []) ++ listPaths r
  | (k, .obj fs) :: r => (listPaths fs).map (k :: ·) ++ listPaths r
  | (_, .leaf _) :: r => listPaths r
def itemPaths : List Json → List (List Str)
  | [] => []
  | .obj fs :: r => listPaths fs ++ itemPaths r
  | _ :: r => itemPaths r
end

mutual
/-- json_input.py:92-102 `dicts_to_list_of_dicts`. -/
def toListOfDicts (s : List (List Str)) (path : List Str) : List (Str × Json) → List (Str × Json)
  | [] => []
  | (k, .arr l) :: r => (k, .arr (itemsToListOfDicts s (path ++ [k]) l)) :: toListOfDicts s path r
  | (k, .obj fs) :: r =>
    let v := Json.obj (toListOfDicts s (path ++ [k]) fs)
    (k, if path ++ [k] ∈ s then .arr [v] else v) :: toListOfDicts s path r
  | (k, .leaf a) :: r => (k, .leaf a) :: toListOfDicts s path r
def itemsToListOfDicts (s : List (List Str)) (path : List Str) : List Json → List Json
  | [] => []
  | .obj fs :: r => .obj (toListOfDicts s path fs) :: itemsToListOfDicts s path r
  | j :: r => j :: itemsToListOfDicts s path r
end

/-- json_input.py:105-115 `list_dict_consistency`. -/
def listDictConsistency (d : List (Str × Json)) : List (Str × Json) :=
  toListOfDicts (listPaths d) [] d

end Verif.Xml
