import Verif.Spec.Emit
import Verif.Spec.HtmlDoc

/-!
# Specification: HTML that differs in attributes which do not matter

Which attributes a converter from HTML uses, and when two documents differ in other attributes only.
-/

namespace Verif.Spec

open Verif Html Emit

/-- the attributes of a tag that a converter uses; there are no sizes of images in strict creole -/
def usedAttrs (cfg : Cfg) (tag : Str) : List Str :=
  if tag = c!"a" then (if cfg.lang = .markdown then [c!"href", c!"title"] else [c!"href"])
  else if tag = c!"img" then
    (if cfg.lang = .creole ∧ cfg.strict = false then [c!"src", c!"alt", c!"title", c!"width", c!"height"] else [c!"src", c!"alt", c!"title"])
  else []

/-- Does an attribute of a node matter?  Nodes that the converter does not know may be written out as tags, with all their
attributes. -/
def nodeMatters (cfg : Cfg) (kind name : Str) : Bool :=
  if (knownKinds cfg.lang).contains kind then (usedAttrs cfg kind).contains name
  else cfg.policy = .htmlMacro || cfg.policy = .preformat || cfg.policy = .escape

/-- Does an attribute of a start tag (`void`: of a tag `<tag />`) matter?  Headlines and `<tbody>` have no attributes.  The tags
`<blockdata />` and `<inlinedata />` stand for preformatted text. -/
def tagMatters (cfg : Cfg) (void : Bool) (tag name : Str) : Bool :=
  if void && (tag = c!"blockdata" || tag = c!"inlinedata") then name = c!"id" || name = c!"type"
  else if !void && (tag = c!"tbody" || (headline? tag).isSome) then false
  else nodeMatters cfg tag name

/-- the value of an attribute; if it is given more than once, the last one counts -/
def attrGet {α : Type} (name : Str) (attrs : List (Str × α)) : Option α := attrs.reverse.lookup name

/-- the attributes that matter have the same values -/
def SameAttrs {α : Type} (matters : Str → Bool) (a b : List (Str × α)) : Prop :=
  ∀ name, matters name = true → attrGet name a = attrGet name b

mutual
/-- two trees that differ in attributes only which do not matter -/
inductive SameNode (cfg : Cfg) : HNode → HNode → Prop
  | mk (i j : HInfo) (ch ch' : List HNode) :
      i.kind = j.kind → i.content = j.content → i.level = j.level →
      (i.attrs.map (·.1)).Nodup → (j.attrs.map (·.1)).Nodup →
      SameAttrs (nodeMatters cfg i.kind) i.attrs j.attrs → SameNodes cfg ch ch' →
      SameNode cfg (.mk i ch) (.mk j ch')
inductive SameNodes (cfg : Cfg) : List HNode → List HNode → Prop
  | nil : SameNodes cfg [] []
  | cons {n n' : HNode} {ns ns' : List HNode} :
      SameNode cfg n n' → SameNodes cfg ns ns' → SameNodes cfg (n :: ns) (n' :: ns')
end

/-- two events of the tokenizer that differ in attributes only which do not matter -/
inductive SameEvent (cfg : Cfg) : Event → Event → Prop
  | same (e : Event) : SameEvent cfg e e
  | start (tag : Str) (a b : List (Str × Option Str)) :
      SameAttrs (tagMatters cfg false tag) a b → SameEvent cfg (.start tag a) (.start tag b)
  | startend (tag : Str) (a b : List (Str × Option Str)) :
      SameAttrs (tagMatters cfg true tag) a b → SameEvent cfg (.startend tag a) (.startend tag b)

inductive SameEvents (cfg : Cfg) : List Event → List Event → Prop
  | nil : SameEvents cfg [] []
  | cons {e e' : Event} {es es' : List Event} :
      SameEvent cfg e e' → SameEvents cfg es es' → SameEvents cfg (e :: es) (e' :: es')

open Hd in
mutual
/-- two pieces of HTML that differ in attributes only which do not matter -/
inductive SameHt (cfg : Cfg) : Ht → Ht → Prop
  | text (s : Str) : SameHt cfg (.text s) (.text s)
  | white (s : Str) : SameHt cfg (.white s) (.white s)
  | el (tag : Str) (a b : List (Str × Str)) (ch ch' : List Ht) :
      SameAttrs (tagMatters cfg false tag) a b → SameHts cfg ch ch' →
      SameHt cfg (.el tag a ch) (.el tag b ch')
  | void (tag : Str) (a b : List (Str × Str)) :
      SameAttrs (tagMatters cfg true tag) a b → SameHt cfg (.void tag a) (.void tag b)
  | bare (tag : Str) (a b : List (Str × Str)) :
      SameAttrs (tagMatters cfg false tag) a b → SameHt cfg (.bare tag a) (.bare tag b)
inductive SameHts (cfg : Cfg) : List Ht → List Ht → Prop
  | nil : SameHts cfg [] []
  | cons {x y : Ht} {xs ys : List Ht} : SameHt cfg x y → SameHts cfg xs ys → SameHts cfg (x :: xs) (y :: ys)
end

end Verif.Spec
