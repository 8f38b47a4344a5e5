import Verif.Spec.Emit
import Verif.Props.Deentity

/-!
# Specification: which nodes a converter cannot convert

`Fault` lists what may be wrong with a node of a document tree, with the exception that is raised for it.
-/

namespace Verif.Spec

open Verif Py Html Emit

mutual

/-- the nodes that are converted, in document order, each with the kinds of its ancestors (nearest first) -/
def contexts (anc : List Str) : HNode → List (List Str × HInfo)
  | .mk i ch => (anc, i) :: (if leafKinds.contains i.kind then [] else contextsL (i.kind :: anc) ch)

def contextsL (anc : List Str) : List HNode → List (List Str × HInfo)
  | [] => []
  | n :: ns => contexts anc n ++ contextsL anc ns

end

/-- what is written between `&#` and `;` in a reference to the character `c` -/
inductive Denotes : Str → Char → Prop
  | dec (ds : Str) (c : Char) : ds ≠ [] → (∀ d ∈ ds, d.isDigit) → ds.length ≤ 4300 → Nat.ofDigitChars 10 ds 0 = c.toNat →
      Denotes ds c
  | hex (hs : Str) (c : Char) : hs ≠ [] → (∀ d ∈ hs, Props.isHexDigit d) → Props.hexValue hs = c.toNat → Denotes ('x' :: hs) c

/-- URLs that `urlparse` may refuse: with square brackets, or with a refused network location `n` -/
inductive BadUrl (netlocOk : Str → Bool) (url : Str) : Prop
  | brackets : '[' ∈ url ∨ ']' ∈ url → BadUrl netlocOk url
  | netloc (n : Str) : netlocOk n = false → n <:+: url.filter (fun c => !(c = '\t' || c = '\r' || c = '\n')) →
      BadUrl netlocOk url

/-- A node that cannot be converted and the exception.  `anc` are the kinds of its ancestors, `all` the nodes of the
document. -/
inductive Fault (cfg : Cfg) (all : List HInfo) (anc : List Str) (i : HInfo) : PyErr → Prop
  /-- an unknown tag, if such tags are to raise -/
  | unknown : cfg.policy = .raise → i.kind ∉ knownKinds cfg.lang → Fault cfg all anc i .notImplementedError
  /-- a text node without text; the HTML parser creates it for the tag `<data>` -/
  | data : i.kind = c!"data" → i.content = none → Fault cfg all anc i .assertionError
  /-- `&#...;` that stands for no character, or the tag `<charref>` -/
  | charref (e : PyErr) : i.kind = c!"charref" → (∀ n c, i.content = some n → ¬ Denotes n c) → Fault cfg all anc i e
  /-- preformatted text with `&name;` or `&#...;` that stands for no character -/
  | pre (t before ref rest : Str) (e : PyErr) : i.kind = c!"blockdata_pre" ∨ i.kind = c!"inlinedata_pre" → i.content = some t →
      t = before ++ ref ++ rest → Props.BadRef ref e → Fault cfg all anc i e
  /-- a preformatted area without text; the HTML parser creates it for the tags `<blockdata_pre>` and `<inlinedata_pre>` -/
  | noPre (e : PyErr) : i.kind = c!"blockdata_pre" ∨ i.kind = c!"inlinedata_pre" → i.content = none → Fault cfg all anc i e
  /-- html2markdown parses `<pre>...</code></pre>` between inline tags once more -/
  | code (t : Str) (e : PyErr) : cfg.lang = .markdown → i.kind = c!"inlinedata_pre" → i.content = some t → c!"</code>" <:+ t →
      Fault cfg all anc i e
  /-- a heading or list item without a level; the HTML parser creates a heading like this for the tag `<headline>` -/
  | level : i.kind = c!"headline" ∨ i.kind = c!"li" ∧ (cfg.lang = .markdown ∨ cfg.lang = .rest) → i.level = none →
      Fault cfg all anc i (.typeError [])
  /-- html2rest: `<h0>` -/
  | smallLevel (n : Int) : cfg.lang = .rest → i.kind = c!"headline" → i.level = some n → n ≤ 0 → Fault cfg all anc i .keyError
  /-- html2markdown: an item that is not in a list -/
  | item (p : Str) (ps : List Str) : cfg.lang = .markdown → i.kind = c!"li" → anc = p :: ps → p ≠ c!"ul" → p ≠ c!"ol" →
      Fault cfg all anc i .notImplementedError
  /-- html2markdown: an item without any parent -/
  | rootItem : cfg.lang = .markdown → i.kind = c!"li" → anc = [] → Fault cfg all anc i .attributeError
  /-- a link without `href`; html2creole accepts it -/
  | noHref : cfg.lang ≠ .creole → i.kind = c!"a" → dictGet c!"href" i.attrs = none → Fault cfg all anc i .keyError
  /-- a picture without `src` -/
  | noSrc : i.kind = c!"img" → dictGet c!"src" i.attrs = none → Fault cfg all anc i .keyError
  /-- `<img src>`, not in html2markdown -/
  | emptySrc : cfg.lang ≠ .markdown → i.kind = c!"img" → dictGet c!"src" i.attrs = some none → Fault cfg all anc i .attributeError
  /-- `<img alt>` or `<img title>`, not in html2markdown -/
  | emptyText : cfg.lang ≠ .markdown → i.kind = c!"img" →
      dictGet c!"alt" i.attrs = some none ∨ dictGet c!"title" i.attrs = some none → Fault cfg all anc i (.typeError [])
  /-- html2markdown: a URL that cannot be parsed -/
  | url (u : Str) : cfg.lang = .markdown → i.kind = c!"a" ∧ dictGet c!"href" i.attrs = some (some u) ∨
      i.kind = c!"img" ∧ dictGet c!"src" i.attrs = some (some u) → BadUrl cfg.netlocOk u → Fault cfg all anc i .valueError
  /-- html2rest: a link, and another one to somewhere else -/
  | twoTargets (u v : Option Str) (j : HInfo) : cfg.lang = .rest → i.kind = c!"a" → dictGet c!"href" i.attrs = some u →
      j ∈ all → j.kind = c!"a" → dictGet c!"href" j.attrs = some v → v ≠ u → Fault cfg all anc i .html2rest
  /-- html2rest: a picture, and another one -/
  | twoPictures (u v : Option Str) (j : HInfo) : cfg.lang = .rest → i.kind = c!"img" → dictGet c!"src" i.attrs = some u →
      j ∈ all → j.kind = c!"img" → dictGet c!"src" j.attrs = some v → v ≠ u → Fault cfg all anc i .html2rest
  /-- a row or cell outside of any table -/
  | cell : i.kind = c!"tr" ∨ i.kind = c!"th" ∨ i.kind = c!"td" → c!"table" ∉ anc → Fault cfg all anc i .attributeError

/-- Nodes for which an exception is raised in any case. -/
inductive SureFault (cfg : Cfg) (anc : List Str) (i : HInfo) : Prop
  | unknown : cfg.policy = .raise → i.kind ∉ knownKinds cfg.lang → SureFault cfg anc i
  | data : i.kind = c!"data" → i.content = none → SureFault cfg anc i
  | noPre : i.kind = c!"blockdata_pre" ∨ i.kind = c!"inlinedata_pre" → i.content = none → SureFault cfg anc i
  | level : i.kind = c!"headline" ∨ i.kind = c!"li" ∧ (cfg.lang = .markdown ∨ cfg.lang = .rest) → i.level = none →
      SureFault cfg anc i
  | smallLevel (n : Int) : cfg.lang = .rest → i.kind = c!"headline" → i.level = some n → n ≤ 0 → SureFault cfg anc i
  | item : cfg.lang = .markdown → i.kind = c!"li" → (∀ p ∈ anc.head?, p ≠ c!"ul" ∧ p ≠ c!"ol") → SureFault cfg anc i
  | noHref : cfg.lang ≠ .creole → i.kind = c!"a" → dictGet c!"href" i.attrs = none → SureFault cfg anc i
  | noSrc : i.kind = c!"img" → dictGet c!"src" i.attrs = none → SureFault cfg anc i
  | emptySrc : cfg.lang ≠ .markdown → i.kind = c!"img" → dictGet c!"src" i.attrs = some none → SureFault cfg anc i

end Verif.Spec
