import Verif.Model.XmlIn
import Verif.Spec.Xml
/-! Specification vocabulary: XML documents that are the same up to the order of attributes and elements. -/
namespace Verif.Spec
open Xml

/-- The second text is the first one without the white space around it; there is none if there is only white space. -/
def Trimmed : Option Str → Option Str → Prop
  | none, y => y = none
  | some s, none => ∀ c ∈ s, Py.isSpace c = true
  | some s, some y => ∃ pre post, s = pre ++ y ++ post ∧ (∀ c ∈ pre ++ post, Py.isSpace c = true) ∧
      (∃ c, y.head? = some c ∧ Py.isSpace c = false) ∧ ∃ c, y.getLast? = some c ∧ Py.isSpace c = false

/-- The second element is the first one, up to the order of attributes and elements: names are qualified by `q` (prefixes replaced by
namespaces), white space around texts is gone. -/
inductive SameXml (q : Str → Str) : Elem → Elem → Prop
  | mk {t a x cs a' y ks cs'} :
      a'.Perm (a.map (fun p => (q p.1, p.2))) →
      All₂ (SameXml q) cs ks →
      ks.Perm cs' →
      Trimmed x y →
      SameXml q (.mk t a x cs) (.mk (q t) a' y cs')

/-- An XML element without namespace declarations: attributes have different names (also when qualified), no name looks like an attribute or
text in a heading, and lxml accepts it (`valid`). -/
inductive XmlDoc (valid : Str → List (Str × Str) → Bool) (q : Str → Str) : Elem → Prop
  | mk {t a x cs} :
      (a.map (fun p => q p.1)).Nodup →
      (∀ p ∈ a, Py.startsWith s%"xmlns" p.1 = false) →
      (∀ a', a'.Perm (a.map (fun p => (q p.1, p.2))) → valid (q t) a' = true) →
      isAttribute t = false ∧ t ≠ s%"#text" ∧ t ≠ s%"text()" →
      (∀ c ∈ cs, XmlDoc valid q c) →
      XmlDoc valid q (.mk t a x cs)

/-- No element is empty: each has an attribute, an element or a text that is not just white space. -/
inductive Filled : Elem → Prop
  | mk {t a x cs} : a ≠ [] ∨ cs ≠ [] ∨ (∃ s, x = some s ∧ ∃ c ∈ s, Py.isSpace c = false) → (∀ c ∈ cs, Filled c) → Filled (.mk t a x cs)

end Verif.Spec
