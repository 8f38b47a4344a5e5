import Verif.Py.Re
import Verif.Py.ReParse

/-!
# The rules of the creole parser

Models `/repo/creole/parser/creol2html_rules.py`.  Every expression is checked at build time (`#guard`)
against the verbatim Python source text.
-/

namespace Verif.Creole

open Verif Re

/-- Names of the groups in the regular expressions of `creol2html_rules.py`. -/
inductive G where
  | url | escaped_url | url_target | url_proto
  | link | link_target | link_text
  | image | image_target | image_text
  | macro_inline | macro_inline_start | macro_inline_args | macro_inline_text
  | macro_tag | macro_tag_name | macro_tag_args
  | pre_inline | pre_inline_text
  | emphasis | emphasis_text | strong | strong_text | monospace | monospace_text
  | superscript | superscript_text | subscript | subscript_text
  | underline | underline_text | delete | delete_text | small | small_text
  | linebreak | escape | escaped_char | char
  | macro_block | macro_block_start | macro_block_args | macro_block_text
  | line | head | head_head | head_text | separator
  | pre_block | pre_block_text | pre_block_kind
  | list | table | text | brk | space
  | item | item_head | item_text | cell
  | indent | rest
  deriving DecidableEq, Repr

/-- group names as written in Python -/
def G.ofName : String → Option G
  | "url" => some .url | "escaped_url" => some .escaped_url | "url_target" => some .url_target
  | "url_proto" => some .url_proto | "link" => some .link | "link_target" => some .link_target
  | "link_text" => some .link_text | "image" => some .image | "image_target" => some .image_target
  | "image_text" => some .image_text | "macro_inline" => some .macro_inline
  | "macro_inline_start" => some .macro_inline_start | "macro_inline_args" => some .macro_inline_args
  | "macro_inline_text" => some .macro_inline_text | "macro_tag" => some .macro_tag
  | "macro_tag_name" => some .macro_tag_name | "macro_tag_args" => some .macro_tag_args
  | "pre_inline" => some .pre_inline | "pre_inline_text" => some .pre_inline_text
  | "emphasis" => some .emphasis | "emphasis_text" => some .emphasis_text
  | "strong" => some .strong | "strong_text" => some .strong_text
  | "monospace" => some .monospace | "monospace_text" => some .monospace_text
  | "superscript" => some .superscript | "superscript_text" => some .superscript_text
  | "subscript" => some .subscript | "subscript_text" => some .subscript_text
  | "underline" => some .underline | "underline_text" => some .underline_text
  | "delete" => some .delete | "delete_text" => some .delete_text
  | "small" => some .small | "small_text" => some .small_text
  | "linebreak" => some .linebreak | "escape" => some .escape | "escaped_char" => some .escaped_char
  | "char" => some .char
  | "macro_block" => some .macro_block | "macro_block_start" => some .macro_block_start
  | "macro_block_args" => some .macro_block_args | "macro_block_text" => some .macro_block_text
  | "line" => some .line | "head" => some .head | "head_head" => some .head_head
  | "head_text" => some .head_text | "separator" => some .separator
  | "pre_block" => some .pre_block | "pre_block_text" => some .pre_block_text
  | "pre_block_kind" => some .pre_block_kind | "list" => some .list | "table" => some .table
  | "text" => some .text | "break" => some .brk | "space" => some .space
  | "item" => some .item | "item_head" => some .item_head | "item_text" => some .item_text
  | "cell" => some .cell | "indent" => some .indent | "rest" => some .rest
  | _ => none

abbrev R := Re G

/-- `.` -/
def dot : R := .cls .dot
/-- `\s*` -/
def sps : R := .star true (.cls .space)
/-- one literal character -/
def ch (c : Char) : R := .cls (.chr c)
/-- `.+?` -/
def someDots : R := .plus false dot
/-- `.*?` -/
def anyDots : R := .star false dot
/-- `(.|\n)` -/
def anyChar : R := .alt dot (ch '\n')

/-! ## `InlineRules` (creol2html_rules.py 13-94) -/

/-- creol2html_rules.py 17: `proto` -/
def proto : R := alts [lit c!"http", lit c!"https", lit c!"ftp", lit c!"nntp", lit c!"news",
  lit c!"mailto", lit c!"telnet", lit c!"file", lit c!"irc"]

def protoSrc : String := r"http|https|ftp|nntp|news|mailto|telnet|file|irc"

/-- creol2html_rules.py 19-23: `url` -/
def urlRule : R := .grp .url <| cat [
  .alt (.bol false) (.behind false .space),
  opt (.grp .escaped_url (ch '~')),
  .grp .url_target <| cat [.grp .url_proto proto, lit c!"://",
    .plus true (.cls (.compl (.union (.chr '$') .space)))]]

def urlSrc : String := r"(?P<url>
            (^ | (?<=\s))
            (?P<escaped_url>~)?
            (?P<url_target> (?P<url_proto> " ++ protoSrc ++ r" )://[^$\s]+ )
        )"

/-- creol2html_rules.py 31-36: `link` -/
def linkRule : R := .grp .link <| cat [
  lit c!"[[", .grp .link_target someDots, sps,
  opt (cat [ch '|', sps, .grp .link_text someDots, sps]),
  lit c!"]]"]

def linkSrc : String := r"(?P<link>
            \[\[
            (?P<link_target>.+?) \s*
            ([|] \s* (?P<link_text>.+?) \s*)?
            ]]
        )"

/-- creol2html_rules.py 51-56: `image` -/
def imageRule : R := .grp .image <| cat [
  lit c!"{{", .grp .image_target someDots, sps,
  opt (cat [ch '|', sps, .grp .image_text someDots, sps]),
  lit c!"}}"]

def imageSrc : String := r"(?P<image>
            {{
            (?P<image_target>.+?) \s*
            (\| \s* (?P<image_text>.+?) \s*)?
            }}
        )"

/-- creol2html_rules.py 60-66: `macro_inline` -/
def macroInlineRule : R := .grp .macro_inline <| cat [
  lit c!"<<", sps, .grp .macro_inline_start (.plus true (.cls .word)), sps,
  .grp .macro_inline_args anyDots, sps, lit c!">>",
  .grp .macro_inline_text (.star false anyChar),
  lit c!"<</", sps, .bref .macro_inline_start, sps, lit c!">>"]

def macroInlineSrc : String := r"
        (?P<macro_inline>
        << \s* (?P<macro_inline_start>\w+) \s* (?P<macro_inline_args>.*?) \s* >>
        (?P<macro_inline_text>(.|\n)*?)
        <</ \s* (?P=macro_inline_start) \s* >>
        )
    "

/-- creol2html_rules.py 68-70: `macro_tag` -/
def macroTagRule : R := .grp .macro_tag <| cat [
  lit c!"<<", .grp .macro_tag_name (.plus true (.cls .word)),
  .grp .macro_tag_args anyDots, sps, .star true (ch '/'), lit c!">>"]

def macroTagSrc : String := r"(?P<macro_tag>
            <<(?P<macro_tag_name> \w+) (?P<macro_tag_args>.*?) \s* /*>>
        )"

/-- creol2html_rules.py 72: `pre_inline` -/
def preInlineRule : R := .grp .pre_inline <| cat [
  lit c!"{{{", .grp .pre_inline_text anyDots, lit c!"}}}"]

def preInlineSrc : String := r"(?P<pre_inline> {{{ (?P<pre_inline_text>.*?) }}} )"

/-- creol2html_rules.py 76: `emphasis` -/
def emphasisRule : R := .grp .emphasis <| cat [
  .behind true (.chr ':'), lit c!"//", .grp .emphasis_text someDots,
  .behind true (.chr ':'), lit c!"//"]

def emphasisSrc : String := r"(?P<emphasis>(?<!:)// (?P<emphasis_text>.+?) (?<!:)// )"

/-- creol2html_rules.py 80-90: the other typefaces all have the form `dd .+? dd` -/
def markRule (g gt : G) (d : Str) : R := .grp g <| cat [lit d, .grp gt someDots, lit d]

def strongSrc : String := r"(?P<strong>\*\* (?P<strong_text>.+?) \*\* )"
def monospaceSrc : String := r"(?P<monospace> \#\# (?P<monospace_text>.+?) \#\# )"
def superscriptSrc : String := r"(?P<superscript> \^\^ (?P<superscript_text>.+?) \^\^ )"
def subscriptSrc : String := r"(?P<subscript> ,, (?P<subscript_text>.+?) ,, )"
def underlineSrc : String := r"(?P<underline> __ (?P<underline_text>.+?) __ )"
def deleteSrc : String := r"(?P<delete> ~~ (?P<delete_text>.+?) ~~ )"
def smallSrc : String := r"(?P<small>-- (?P<small_text>.+?) -- )"
def linebreakSrc : String := r"(?P<linebreak> \\\\ )"
def escapeSrc : String := r"(?P<escape> ~ (?P<escaped_char>\S) )"
def charSrc : String := r"(?P<char> . )"

/-- creol2html_rules.py 92: `linebreak` -/
def linebreakRule : R := .grp .linebreak (lit c!"\\\\")

/-- creol2html_rules.py 93: `escape` -/
def escapeRule : R := .grp .escape (.seq (ch '~') (.grp .escaped_char (.cls (.compl .space))))

/-- creol2html_rules.py 94: `char` -/
def charRule : R := .grp .char dot

/-- creol2html_rules.py 198-210: `INLINE_RULES` -/
def inlineRules : List R := [
  linkRule, urlRule, macroInlineRule, macroTagRule, preInlineRule, imageRule,
  markRule .strong .strong_text c!"**", emphasisRule,
  markRule .monospace .monospace_text c!"##", markRule .underline .underline_text c!"__",
  markRule .superscript .superscript_text c!"^^", markRule .subscript .subscript_text c!",,",
  markRule .small .small_text c!"--", markRule .delete .delete_text c!"~~",
  linebreakRule, escapeRule, charRule]

/-- creol2html_parser.py 59: `inline_re` -/
def inlineRe : R := alts inlineRules

def inlineSrc : String := "|".intercalate [
  linkSrc, urlSrc, macroInlineSrc, macroTagSrc, preInlineSrc, imageSrc, strongSrc, emphasisSrc,
  monospaceSrc, underlineSrc, superscriptSrc, subscriptSrc, smallSrc, deleteSrc, linebreakSrc,
  escapeSrc, charSrc]

/-- options for `re.VERBOSE | re.UNICODE` (creol2html_rules.py 197) -/
def oInline : ReParse.Opts G := ⟨true, false, G.ofName⟩
/-- options for `re.VERBOSE | re.UNICODE | re.MULTILINE` (creol2html_rules.py 151) -/
def oMulti : ReParse.Opts G := ⟨true, true, G.ofName⟩

#guard ReParse.sameAs oInline inlineSrc inlineRe

/-- creol2html_parser.py 46-49: `link_re` -/
def linkRe : R := alts [imageRule, linebreakRule, charRule]

#guard ReParse.sameAs oInline ("|".intercalate [imageSrc, linebreakSrc, charSrc]) linkRe

/-! ## `BlockRules` (creol2html_rules.py 97-166) -/

/-- creol2html_rules.py 112-118: `macro_block` -/
def macroBlockRule : R := .grp .macro_block <| cat [
  lit c!"<<", sps, .grp .macro_block_start (.plus true (.cls .word)), sps,
  .grp .macro_block_args anyDots, sps, lit c!">>",
  .grp .macro_block_text (.star false anyChar),
  lit c!"<</", sps, .bref .macro_block_start, sps, lit c!">>"]

def macroBlockSrc : String := r"
        (?P<macro_block>
        << \s* (?P<macro_block_start>\w+) \s* (?P<macro_block_args>.*?) \s* >>
        (?P<macro_block_text>(.|\n)*?)
        <</ \s* (?P=macro_block_start) \s* >>
        )
    "

/-- creol2html_rules.py 120: `line` -/
def lineRule : R := .grp .line <| cat [.bol true, sps, .eol true]

def lineSrc : String := r"(?P<line> ^\s*$ )"

/-- creol2html_rules.py 122-127: `head` -/
def headRule : R := .grp .head <| cat [
  .bol true, .grp .head_head (.plus true (ch '=')), sps,
  .grp .head_text anyDots,
  .star false (.alt (ch '=') (.cls .space)), .eol true]

def headSrc : String := r"(?P<head>
        ^
        (?P<head_head>=+) \s*
        (?P<head_text> .*? )
        (=|\s)*?$
    )"

/-- `[ \t]*` -/
def blanks : R := .star true (.cls (.union (.chr ' ') (.chr '\t')))

/-- creol2html_rules.py 128: `separator` -/
def separatorRule : R := cat [
  .grp .separator (cat [.bol true, sps, lit c!"----"]), blanks, .eol true]

def separatorSrc : String := r"(?P<separator> ^ \s* ----) [ \t]* $"

/-- creol2html_rules.py 130-137: `pre_block` -/
def preBlockRule : R := .grp .pre_block <| cat [
  .bol true, lit c!"{{{", sps, .eol true,
  .grp .pre_block_text <| cat [
    opt (cat [ch '#', ch '!', .grp .pre_block_kind (.star false (.cls .word)),
      opt (.seq (.plus true (.cls .space)) (.star true dot)), .eol true]),
    .plus false anyChar],
  .bol true, lit c!"}}}"]

def preBlockSrc : String := r"(?P<pre_block>
            ^{{{ \s* $
            (?P<pre_block_text>
                ([\#]!(?P<pre_block_kind>\w*?)(\s+.*)?$)?
                (.|\n)+?
            )
            ^}}})
        "

/-- `[*\#]` -/
def bulletCls : CSet := .union (.chr '*') (.chr '#')

/-- the first line of a list: `^ \s* ([*][^*\#]|[\#][^\#*]).* $` -/
def listFirst : R := cat [.bol true, sps,
    .alt (.seq (ch '*') (.cls (.compl (.union (.chr '*') (.chr '#')))))
      (.seq (ch '#') (.cls (.compl (.union (.chr '#') (.chr '*'))))),
    .star true dot, .eol true]

/-- a further line of a list: `\n[ \t]* [*\#]+.* $` -/
def listMore : R := cat [ch '\n', blanks, .plus true (.cls bulletCls), .star true dot, .eol true]

/-- creol2html_rules.py 141-144: `list` -/
def listRule : R := .grp .list <| .seq listFirst (.star true listMore)

def listSrc : String := r"(?P<list>
        ^ \s* ([*][^*\#]|[\#][^\#*]).* $
        ( \n[ \t]* [*\#]+.* $ )*
    )"

/-- creol2html_rules.py 146-149: `table` -/
def tableRule : R := cat [
  .bol true, sps, .grp .table (cat [ch '|', anyDots, sps, opt (ch '|')]), sps, .eol true]

def tableSrc : String := r"^ \s*(?P<table>
            [|].*? \s*
            [|]?
        ) \s* $"

/-- `(?<!\\)$\n(?!\s*$)` : a line break inside a paragraph -/
def softBreak : R := cat [.behind true (.chr '\\'), .eol true, ch '\n',
  .notAhead (cat [sps, .eol true])]

/-- creol2html_rules.py 154-159: `text`, blog or wiki style -/
def textRule (blog : Bool) : R :=
  if blog then .seq (.grp .text (.plus true dot)) (opt (.grp .brk softBreak))
  else .seq (opt (.grp .space softBreak)) (.grp .text (.plus true dot))

def textSrc (blog : Bool) : String :=
  if blog then r"(?P<text> .+ ) (?P<break> (?<!\\)$\n(?!\s*$) )?"
  else r"(?P<space> (?<!\\)$\n(?!\s*$) )? (?P<text> .+ )"

/-- creol2html_rules.py 161-166: `rules` -/
def blockRules (blog : Bool) : List R := [
  macroBlockRule, lineRule, headRule, separatorRule, preBlockRule, listRule, tableRule, textRule blog]

/-- creol2html_parser.py 72: `block_re` -/
def blockRe (blog : Bool) : R := alts (blockRules blog)

def blockSrc (blog : Bool) : String := "|".intercalate [
  macroBlockSrc, lineSrc, headSrc, separatorSrc, preBlockSrc, listSrc, tableSrc, textSrc blog]

#guard ReParse.sameAs oMulti (blockSrc true) (blockRe true)
#guard ReParse.sameAs oMulti (blockSrc false) (blockRe false)

/-! ## `SpecialRules` (creol2html_rules.py 169-194) -/

/-- creol2html_rules.py 174-177: `item` -/
def itemRe : R := cat [
  .bol true, sps,
  .grp .item (cat [.grp .item_head (.plus true (.cls (.union (.chr '#') (.chr '*')))), sps,
    .grp .item_text anyDots]),
  sps, .eol true]

def itemSrc : String := r"^ \s* (?P<item>
        (?P<item_head> [\#*]+) \s*
        (?P<item_text> .*?)
    ) \s* $"

#guard ReParse.sameAs oMulti itemSrc itemRe

/-- creol2html_rules.py 180-191: `cell` -/
def cellRe : R := cat [
  ch '|', sps,
  .alt (.grp .head (.seq (ch '=') (.plus true (.cls (.compl (.chr '|'))))))
    (.grp .cell (.plus true (alts [linkRule, macroInlineRule, macroTagRule, imageRule, preInlineRule,
      .cls (.compl (.chr '|'))]))),
  sps]

def cellSrc : String := r"
            \| \s*
            (
                (?P<head> [=][^|]+ ) |
                (?P<cell> (  " ++ "|".intercalate [linkSrc, macroInlineSrc, macroTagSrc, imageSrc, preInlineSrc]
  ++ r" | [^|])+ )
            ) \s*
        "

#guard ReParse.sameAs oInline cellSrc cellRe

/-- creol2html_rules.py 194: `pre_escape` -/
def preEscapeRe : R := cat [
  .bol true, .grp .indent sps, ch '~', .grp .rest (.seq (lit c!"}}}") sps), .eol true]

def preEscapeSrc : String := r" ^(?P<indent>\s*) ~ (?P<rest> \}\}\} \s*) $"

#guard ReParse.sameAs oMulti preEscapeSrc preEscapeRe

/-- The body of every repetition in the model consumes at least one character, which is what makes the fuel of
`starM` exact. -/
def nullable : R → Bool
  | .eps => true
  | .cls _ => false
  | .seq a b => nullable a && nullable b
  | .alt a b => nullable a || nullable b
  | .star _ _ => true
  | .grp _ a => nullable a
  | .bref _ => true
  | .bol _ | .eol _ | .behind _ _ | .notAhead _ => true

def starsOk : R → Bool
  | .seq a b | .alt a b => starsOk a && starsOk b
  | .star _ a => !nullable a && starsOk a
  | .grp _ a | .notAhead a => starsOk a
  | _ => true

#guard starsOk inlineRe && starsOk (blockRe true) && starsOk (blockRe false) && starsOk linkRe &&
  starsOk itemRe && starsOk cellRe && starsOk preEscapeRe

end Verif.Creole
