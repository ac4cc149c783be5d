import Verif.Spec.Address
import Verif.Spec.Objects
import Verif.Spec.Order
/-! Specification vocabulary: what a line says about which object, whatever its columns are called and whichever sheet it is in. -/
namespace Verif.Spec

/-- A position in an object that does not depend on how items are numbered: for an array, the id of the item meant. -/
abbrev NamedPos := List (Str × Option Val)

/-- The position with the indices replaced by the ids of the items; `none` if an item has no id.  `m` is the name of the id field. -/
def namedPos (m : Str) : Content → Addr → Option NamedPos
  | _, [] => some []
  | f, (k, none) :: a => (namedPos m (fun rest => f ((k, none) :: rest)) a).map ((k, none) :: ·)
  | f, (k, some i) :: a =>
    match f [(k, some i), (m, none)] with
    | some v => (namedPos m (fun rest => f ((k, some i) :: rest)) a).map ((k, some v) :: ·)
    | none => none

/-- Something a line says: in the object with this id (and this root id), at this position, there is this value. -/
structure Fact where
  root : Atom
  id : Val
  pos : NamedPos
  value : Val

/-- The line says so. -/
def Says (cfg : UnCfg) (m : Str) (l : Line) (x : Fact) : Prop :=
  x.root = rootCell cfg.rootId l ∧ contentOf cfg.row (columns l) [(m, none)] = some x.id ∧
    ∃ a, contentOf cfg.row (columns l) a = some x.value ∧ namedPos m (contentOf cfg.row (columns l)) a = some x.pos

/-- A line that names everything it speaks about: each heading is a position, the positions fit together, the values can be converted and compared
(no NaN, no geometry); the object has an id, and so does every array item, different ones for different items. -/
structure NamesAll (cfg : UnCfg) (m : Str) (l : Line) : Prop where
  positions : ∀ c ∈ columns l, c.addr cfg.row ≠ none
  fit : ((columns l).map (fun c => (c.addr cfg.row).getD [])).Pairwise Compatible
  values : ∀ c ∈ columns l, ∃ v w, c.value cfg.row = .ok (v, w) ∧ v.blank = false ∧ v.pyEq v = true ∧ ∀ g, v ≠ .geo g
  id : ∃ v, contentOf cfg.row (columns l) [(m, none)] = some v ∧ v.hashable = true
  items : ∀ A k i B v, contentOf cfg.row (columns l) (A ++ (k, some i) :: B) = some v →
    ∃ w, contentOf cfg.row (columns l) (A ++ [(k, some i), (m, none)]) = some w ∧ w.hashable = true
  distinct : DistinctIds (some m) (contentOf cfg.row (columns l))
  root : atomEq (rootCell cfg.rootId l) (rootCell cfg.rootId l) = true

/-- The same position: the same keys, and equal ids. -/
def SameNamed (p q : NamedPos) : Prop :=
  All₂ (fun s t => s.1 = t.1 ∧ match s.2, t.2 with
    | some v, some w => v.pyEq w = true
    | none, none => True
    | _, _ => False) p q

/-- Both positions can be in one object: they are the same, or part at different keys or at different items of one array. -/
def FitNamed : NamedPos → NamedPos → Prop
  | [], [] => True
  | (k, none) :: p, (k', none) :: q => k = k' → FitNamed p q
  | (k, some v) :: p, (k', some w) :: q => k = k' → v.pyEq w = true → FitNamed p q
  | (k, _) :: _, (k', _) :: _ => k ≠ k'
  | _, _ => False

/-- Both speak about the same object. -/
def Fact.SameObject (x y : Fact) : Prop := atomEq x.root y.root = true ∧ x.id.pyEq y.id = true

/-- Both say the same. -/
def Fact.Same (x y : Fact) : Prop := x.SameObject y ∧ SameNamed x.pos y.pos ∧ x.value.pyEq y.value = true

/-- They do not contradict each other. -/
def Fact.Agree (x y : Fact) : Prop := x.SameObject y → FitNamed x.pos y.pos ∧ (SameNamed x.pos y.pos → x.value.pyEq y.value = true)

/-- Some row says so. -/
def Said (cfg : UnCfg) (m : Str) (sheets : List SheetIn) (x : Fact) : Prop := ∃ r ∈ rowsIn sheets, Says cfg m r.line x

/-- The same is said, whatever rows and sheets it is in and however often. -/
def SameSaid (cfg : UnCfg) (m : Str) (sheets sheets' : List SheetIn) : Prop :=
  (∀ x, Said cfg m sheets x → ∃ y, Said cfg m sheets' y ∧ x.Same y) ∧ (∀ y, Said cfg m sheets' y → ∃ x, Said cfg m sheets x ∧ y.Same x)

/-- The line says a part of what the other line says: some of its columns, each once, in any order, with the same root id, with the id of the object, and with
each column the ids of the items it is in. -/
structure PartOf (cfg : UnCfg) (m : Str) (l part : Line) : Prop where
  root : rootCell cfg.rootId part = rootCell cfg.rootId l
  among : ∀ c ∈ columns part, c ∈ columns l
  once : (columns part).Nodup
  id : ∃ c ∈ columns part, c.addr cfg.row = some [(m, none)]
  items : ∀ c ∈ columns part, ∀ A k i B, c.addr cfg.row = some (A ++ (k, some i) :: B) →
    ∃ d ∈ columns part, d.addr cfg.row = some (A ++ [(k, some i), (m, none)])

end Verif.Spec
