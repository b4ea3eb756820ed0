/-
The texts that a parse accepts, with the tree each one stands for.

The grammar is the one of XML without the document type declaration, and with what this library
lets pass besides: `<name>/>` is taken for `<name/>`; names are any bytes up to a white space, `>` or `=`; a tag may begin with two
`<` or have comments after the `<`.  Strings end at the first NUL byte, as C strings do.
-/
import Verif.Spec.AttrApi
import Verif.Model.Doc
import Verif.Model.Lit

namespace Axl.Spec.Xml

/-- What a C function sees of a block of bytes. -/
def cstr (t : List Char) : List Char := t.takeWhile (· ≠ Char.ofNat 0)

def White (c : Char) : Prop := c = ' ' ∨ c = '\n' ∨ c = '\t' ∨ c = '\r'

/-- Only white spaces, maybe none. -/
def Blank (t : List Char) : Prop := ∀ c ∈ t, White c

/-- In `t ++ mark` the mark is only at the end. -/
def UpTo (mark t : List Char) : Prop := ¬ mark <:+: t ++ mark.dropLast

/-- The name `xml`, in upper or lower case. -/
def Reserved (name : List Char) : Prop :=
  ∃ x m l, name = [x, m, l] ∧ (x = 'x' ∨ x = 'X') ∧ (m = 'm' ∨ m = 'M') ∧ (l = 'l' ∨ l = 'L')

/-- `<?name?>` or `<?name content?>`; one blank before the `?>` is not part of the content. -/
inductive Instruction : List Char → PI → Prop
  | bare {name : List Char} : (∀ c ∈ name, ¬ White c) → UpTo c!"?>" name →
      ¬ Reserved (cstr name) → Instruction (c!"<?" ++ name ++ c!"?>") ⟨cstr name, none⟩
  | full {name content blank : List Char} {w : Char} : (∀ c ∈ name, ¬ White c) → UpTo c!"?>" name →
      ¬ Reserved (cstr name) → White w →
      UpTo c!"?>" (content ++ blank) → (blank = [] ∧ content.getLast? ≠ some ' ' ∨ blank = [' ']) →
      Instruction (c!"<?" ++ name ++ w :: content ++ blank ++ c!"?>") ⟨cstr name, some (cstr content)⟩

/-- `<!--text-->` -/
inductive Comment : List Char → List Char → Prop
  | mk {text : List Char} : text ≠ [] → UpTo c!"-->" text → Comment (c!"<!--" ++ text ++ c!"-->") text

/-- White spaces, comments and instructions, in any number: the text and the items. -/
inductive Misc : List Char → List Leaf → Prop
  | nil : Misc [] []
  | blank {t u : List Char} {ls : List Leaf} : Blank t → Misc u ls → Misc (t ++ u) ls
  | comment {t u c : List Char} {ls : List Leaf} : Comment t c → Misc u ls → Misc (t ++ u) (.comment c :: ls)
  | pi {t u : List Char} {p : PI} {ls : List Leaf} : Instruction t p → Misc u ls → Misc (t ++ u) (.pi p :: ls)

/-- `name="value"` or `name='value'`.  If the quote is not closed in the rest of the document, there is no
value. -/
inductive Attribute : List Char → List Char → Option (List Char) → Prop
  | value {name value : List Char} {q : Char} : '=' ∉ name → cstr name ≠ [] → (q = '"' ∨ q = '\'') → q ∉ value →
      Attribute (name ++ '=' :: q :: value ++ [q]) (cstr name) (some (cstr value))
  | noValue {name : List Char} {q : Char} : '=' ∉ name → cstr name ≠ [] → (q = '"' ∨ q = '\'') →
      Attribute (name ++ ['=', q]) (cstr name) none

/-- Attributes with white spaces around them. -/
inductive Attributes : List Char → List (List Char × Option (List Char)) → Prop
  | nil : Attributes [] []
  | cons {b t b' u n : List Char} {v : Option (List Char)} {as : List (List Char × Option (List Char))} :
      Blank b → Attribute t n v → Blank b' → Attributes u as → Attributes (b ++ t ++ b' ++ u) ((n, v) :: as)

/-- A name in a tag. -/
def TagName (raw : List Char) : Prop := cstr raw ≠ [] ∧ '>' ∉ raw ∧ ∀ c ∈ raw, ¬ White c

/-- The tag that opens an element, or is the whole of it (`empty`), from its name on. -/
inductive Tag : List Char → (empty : Bool) → List Char → List (List Char × Option (List Char)) → Prop
  | plain {raw : List Char} : TagName raw → (cstr raw).getLast? ≠ some '/' → Tag (raw ++ ['>']) false (cstr raw) []
  /-- The end of an empty element after the end of the tag. -/
  | plainLate {raw : List Char} : TagName raw → (cstr raw).getLast? ≠ some '/' → Tag (raw ++ c!">/>") true (cstr raw) []
  | plainEmpty {raw name : List Char} : TagName raw → cstr raw = name ++ ['/'] → Tag (raw ++ ['>']) true name []
  | attrs {raw b t : List Char} {w : Char} {as : List (List Char × Option (List Char))} : TagName raw → White w → Blank b →
      Attributes t as → Tag (raw ++ w :: b ++ t ++ ['>']) false (cstr raw) as
  | attrsEmpty {raw b t : List Char} {w : Char} {as : List (List Char × Option (List Char))} : TagName raw → White w → Blank b →
      Attributes t as → Tag (raw ++ w :: b ++ t ++ c!"/>") true (cstr raw) as

/-- The tag that closes the element `name`; one white space may follow the name. -/
inductive CloseTag (name : List Char) : List Char → Prop
  | plain {raw : List Char} : '>' ∉ raw → cstr raw = name → CloseTag name (c!"</" ++ raw ++ ['>'])
  | blank {raw : List Char} {w : Char} : '>' ∉ raw → White w → cstr raw = name → CloseTag name (c!"</" ++ raw ++ [w, '>'])

/-- The attributes that have a value. -/
def withValue (as : List (List Char × Option (List Char))) : List (List Char × List Char) :=
  as.filterMap fun p => p.2.map fun v => (p.1, v)

/-- The attributes of an element are exactly those of its tag, and no name is there twice. -/
def AttrsOf (a : Attrs) (as : List (List Char × Option (List Char))) : Prop :=
  (as.map (·.1)).Nodup ∧ a.Made ∧ a.Lists (withValue as)

/-- The items followed by others. -/
def leaves : List Leaf → Items → Items
  | [], next => next
  | l :: ls, next => .leaf l (leaves ls next)

mutual
/-- The text of an element, from its name on, and the node it stands for: the tag that opens it, its
content and the tag that closes it, with the same name. -/
inductive Element : List Char → Node → Prop
  | empty {t name : List Char} {a : Attrs} {as : List (List Char × Option (List Char))} : Tag t true name as → AttrsOf a as →
      Element t (.mk name a .nil)
  | pair {t c e name : List Char} {a : Attrs} {as : List (List Char × Option (List Char))} {items : Items} :
      Tag t false name as → AttrsOf a as → Content c items → CloseTag name e →
      Element (t ++ c ++ e) (.mk name a items)
/-- The text between two tags and its items. -/
inductive Content : List Char → Items → Prop
  | nil : Content [] .nil
  | misc {t u : List Char} {ls : List Leaf} {items : Items} : Misc t ls → Content u items → Content (t ++ u) (leaves ls items)
  | text {t u : List Char} {items : Items} : t ≠ [] → '<' ∉ t → Content u items →
      Content (t ++ u) (.leaf (.content (cstr t)) items)
  | cdata {t u : List Char} {items : Items} : UpTo c!"]]>" t → Content u items →
      Content (c!"<![CDATA[" ++ t ++ c!"]]>" ++ u) (.leaf (.cdata (cstr t)) items)
  | element {m angle t u : List Char} {ls : List Leaf} {n : Node} {items : Items} : Misc m ls → (angle = [] ∨ angle = ['<']) →
      Element t n → Content u items → Content ('<' :: m ++ angle ++ t ++ u) (leaves ls (.node n items))
end

/-- `name="value"` or `name='value'` in the declaration at the beginning; any of both quotes ends it. -/
inductive DeclPart (name : List Char) : List Char → Option (List Char) → Prop
  | none : DeclPart name [] none
  | some {value : List Char} {q q' : Char} : (q = '"' ∨ q = '\'') → (q' = '"' ∨ q' = '\'') → '"' ∉ value → '\'' ∉ value →
      DeclPart name (name ++ q :: value ++ [q']) (some (cstr value))

/-- The declaration at the beginning.  Its version can be missing in a document with few bytes after the
place for it. -/
inductive Decl : List Char → Option (List Char) → Option (List Char) → Prop
  | mk {b1 ver b2 num b3 enc b4 alone b5 : List Char} {e a : Option (List Char)} : Blank b1 → Blank b2 → Blank b3 → Blank b4 → Blank b5 →
      (ver = c!"version=" ∨ ver = []) → (num = c!"\"1.0\"" ∨ num = c!"'1.0'" ∨ num = []) →
      DeclPart c!"encoding=" enc e → DeclPart c!"standalone=" alone a →
      Decl (c!"<?xml" ++ b1 ++ ver ++ b2 ++ num ++ b3 ++ enc ++ b4 ++ alone ++ b5 ++ c!"?>") e a

/-- All before the root but comments and instructions: the mark of UTF-8, the declaration, comments and
the document type declaration, that is skipped up to the first `>`. -/
inductive Prolog : List Char → Option (List Char) → Option (List Char) → Prop
  | mk {bom decl dt : List Char} {e a : Option (List Char)} :
      (bom = [] ∨ bom = ['ï', '»', '¿']) →
      (decl = [] ∧ e = none ∧ a = none ∨ ∃ d m ls, decl = d ++ m ∧ Decl d e a ∧ Misc m ls) →
      (dt = [] ∨ ∃ d m ls, dt = c!"<!DOCTYPE" ++ d ++ m ∧ (d = [] ∨ ∃ x, '>' ∉ x ∧ d = x ++ ['>']) ∧ Misc m ls) →
      Prolog (bom ++ decl ++ dt) e a

/-- The processing instructions in a list of items. -/
def instructions (ls : List Leaf) : List PI :=
  ls.filterMap fun l => match l with | .pi p => some p | _ => none

/-- The value of standalone begins with `yes`. -/
def saysYes : Option (List Char) → Bool
  | some v => c!"yes".isPrefixOf v
  | none => false

/-- A whole document: the prolog, comments and instructions, the root, and anything after it, that is not
read. -/
inductive Document : List Char → Doc → Prop
  | mk {prolog m angle t rest : List Char} {ls : List Leaf} {e a : Option (List Char)} {root : Node} {noValue : List (List Char × List Char)} :
      Prolog prolog e a → Misc m ls → (angle = [] ∨ angle = ['<']) → Element t root →
      Document (prolog ++ m ++ angle ++ t ++ rest)
        ⟨e, saysYes a, root, instructions ls, noValue⟩

/-- There is a value for standalone with less than two bytes. -/
def ShortStandalone (s : List Char) : Prop :=
  ∃ pre value post q q', (q = '"' ∨ q = '\'') ∧ (q' = '"' ∨ q' = '\'') ∧
    s = pre ++ c!"standalone=" ++ q :: value ++ q' :: post ∧ value.length < 2

end Axl.Spec.Xml
