import Verif.Model.JsonText
/-!
# The home page: `WebClient.home_page`, the data in `index.html` and what `app.js` makes of it
-/

namespace TD

/-- `static_data` (server.py:108-114). -/
def staticData (α : Type) : WJson α :=
  .obj [
    ("algorithm_labels".toList, .obj (AlgLabel.all.map fun c => (c.name, .str c.className))),
    ("distance_measures".toList, .arr (["l1", "l2", "l_inf", "cosine"].map fun m => .str m.toList))]

/-- `markupsafe.escape` for one character (`{{ data_json }}` with autoescaping, index.html:25). -/
def htmlEscape (c : Char) : Text :=
  if c = '&' then "&amp;".toList
  else if c = '>' then "&gt;".toList
  else if c = '<' then "&lt;".toList
  else if c = '\'' then "&#39;".toList
  else if c = '"' then "&#34;".toList
  else [c]

/-- The page from the start of the content of the `data-json` element on (index.html:25-33). -/
def pageText (after data : Text) : Text := data.flatMap htmlEscape ++ "</script>".toList ++ after

/-- Does the text begin with `</script`, in whatever case?  Simplification: the HTML standard also wants white space, `/` or `>`
after it, which makes no difference where the element ends with `</script>`. -/
def closesScript (t : Text) : Bool :=
  (t.take 8).map Char.toLower = "</script".toList

/-- The content of a `script` element: all text up to the end tag; character references are not decoded.  `innerHTML` of it is the
same text.  Simplification: the "escaped" states of the HTML standard, which begin with `<!--`, are not modelled. -/
def scriptContent : Text → Text
  | [] => []
  | c :: r => if closesScript (c :: r) then [] else c :: scriptContent r

/-- `.replace(/&#34;/g, '"')` (app.js:3). -/
def replaceQuotes : Text → Text
  | '&' :: '#' :: '3' :: '4' :: ';' :: r => '"' :: replaceQuotes r
  | c :: r => c :: replaceQuotes r
  | [] => []

/-- `DATA` (app.js:2-3), for the page with this text; `none`: an exception. -/
def pageData {α : Type} (R : JsonReader α) (page : Text) : Option (WJson α) := parseJson R (replaceQuotes (scriptContent page))

/-- `WebClient.home_page` (server.py:105-115): the page from the start of the content of the `data-json` element on. -/
def homePage {α : Type} (showNum : α → Text) (after : Text) : Text := pageText after (pyDumps showNum (staticData α))

end TD
