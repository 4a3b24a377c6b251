import Verif.Model.Apply
import Verif.Model.Render
import Verif.Model.Frame
import Verif.Model.Router
import Verif.Props.Upgrade
import Verif.Props.RoundTrip
import Verif.Props.Render
/-!
# Validation of the model: the repository's own tests

Every test in /repo that is about code in the model, run on the model (by the kernel).  These are checks of the model, not proofs of properties: a model that
failed one of them would not be a model of a program that passes it.  The two tests that the repository ignores (`#[ignore = "todo: fix"]`) fail here too.
-/
namespace Puck.RepoTests

open Puck

/-! ## puck -/

/-- puck/src/ws/frame.rs:231-257 `test_parse_frames` -/
example : (Frame.parse 32 [.data [137, 0]]).1 = .ok ⟨true, false, false, false, .ping, []⟩ ∧
    (Frame.parse 32 [.data [138, 0]]).1 = .ok ⟨true, false, false, false, .pong, []⟩ := by
  decide +kernel

/-- puck/src/ws/upgrade.rs:68-74 `test_compute_upgrade_header` -/
example : computeAccept Sha1.sha1 "dGhlIHNhbXBsZSBub25jZQ==" = "s3pPLMBiTxaQ9kYGzzhZRbK+xOo=" := C26_rfc_example

/-- puck/src/core/router/match_url.rs:96-111 `test_simple` -/
example :
    let matcher : List Segment := [.static "home", .static "name", .param, .static "page", .intParam]
    doesMatch matcher ⟨"https://example.com", "/home/name/someone/page/12", none⟩ = true ∧
    doesMatch matcher ⟨"https://example.com", "/home/name/someone/page/twelve", none⟩ = false := by
  decide +kernel

/-- the test's `Url::parse("http://example.com")` and the one in `Request::parse`; the header parser is the one made from the specification -/
def exampleEnv : HttpEnv where
  httparse := hpReq
  httparseRes := fun _ => ⟨none, none, []⟩
  parseUrl := fun s => if s = "http://example.com" ∨ s = "http://example.com/" then some ⟨"http://example.com", "/", none⟩ else none
  ord := fun h => h
  W := 32

/-- puck/src/regressions/mod.rs:5-23 `execute_test` -/
def executeTest (headers : List (String × String)) (body : String) : Bool :=
  match (RequestBuilder.tryNew exampleEnv "http://example.com").bind fun b =>
      (((b.addHeaders headers).setMethod .get).setBody (Body.fromString body)).tryBuild with
  | none => false
  | some req =>
    match req.write exampleEnv ⟨[], none⟩ with
    | (.ok _, _, s) =>
      match Request.parse exampleEnv [.data s.out] with
      | .ok (some req') => req'.headers.all fun h => headers.contains h
      | _ => false
    | _ => false

/-- puck/src/regressions/mod.rs:25-33 -/
example : executeTest [("NW", "gcfZ-spKEf-v-gh"), ("Host", "example.com")] "u𘐿\\K;ῗ𐰑𖭜R" = true := by decide +kernel

/-- puck/src/regressions/mod.rs:35-43 -/
example : executeTest [("aA", "aa"), ("Host", "example.com")] "" = true := by decide +kernel

/-! ## puck_liveview -/

mutual
/-- puck_liveview/src/dom/element/mod.rs:12 `#[derive(PartialEq)]` -/
def eqElement : Element → Element → Bool
  | ⟨id, name, attributes, listeners, children, text, key⟩, ⟨id', name', attributes', listeners', children', text', key'⟩ =>
    id == id' && name == name' && Headers.same attributes attributes' && listeners == listeners' && eqElements children children' && text == text' && key == key'
/-- `Vec::eq` -/
def eqElements : List Element → List Element → Bool
  | [], [] => true
  | a :: as, b :: bs => eqElement a b && eqElements as bs
  | _, _ => false
end

/-- what the tests do: diff, apply, compare -/
def diffsTo (old new : Element) : Bool :=
  match old.diff (some new) with
  | none => false
  | some ops =>
    match applyOps ops old with
    | none => false
    | some e => eqElement e new

/-- puck_liveview/src/dom/element/diff/test_diffing.rs:7-27 `test_name_change` -/
example : diffsTo (.blank 0 "div") (.blank 0 "p") = true := by decide +kernel

/-- puck_liveview/src/dom/element/diff/test_diffing.rs:29-78 `test_single_element_attribute_change` -/
example : ∃ ops, Element.diff ⟨0, "div", [("class", "one"), ("attribute-which-doesn-t-exist-after-diffing", "1")], [], [], none, none⟩
      (some ⟨0, "div", [("class", "two"), ("new-attribute-added-after-diffing", "value")], [], [], none, none⟩) = some ops ∧ ops.length = 3 ∧
    (∃ op ∈ ops, op.instruction = .setAttribute "new-attribute-added-after-diffing" "value") ∧
    (∃ op ∈ ops, op.instruction = .setAttribute "class" "two") := by
  refine ⟨[⟨0, .removeAttribute "attribute-which-doesn-t-exist-after-diffing"⟩, ⟨0, .setAttribute "class" "two"⟩,
    ⟨0, .setAttribute "new-attribute-added-after-diffing" "value"⟩], by decide +kernel, rfl,
    ⟨⟨0, .setAttribute "new-attribute-added-after-diffing" "value"⟩, by simp, rfl⟩, ⟨⟨0, .setAttribute "class" "two"⟩, by simp, rfl⟩⟩

/-- puck_liveview/src/dom/element/diff/test_diffing.rs:80-102 `test_single_element_text_change` -/
example : diffsTo ⟨0, "p", [], [], [], some "the cat sat on the mat", none⟩ ⟨0, "p", [], [], [], some "the mat sat on the cat", none⟩ = true := by
  decide +kernel

/-- puck_liveview/src/dom/element/diff/test_diffing.rs:104-147 `test_add_child_change`, ignored there: it fails -/
example : diffsTo ⟨0, "div", [], [], [⟨3, "p", [], [], [], some "the cat sat on the mat", some "a"⟩], none, none⟩
    ⟨0, "div", [], [], [⟨3, "p", [], [], [], some "the cat sat on the mat", some "a"⟩, ⟨2, "p", [], [], [], some "the mat sat on the cat", some "b"⟩],
      none, none⟩ = false := by
  decide +kernel

/-- puck_liveview/src/dom/element/diff/test_diffing.rs:149-192 `test_add_child_before_change`, ignored there: it fails -/
example : diffsTo ⟨0, "div", [], [], [⟨3, "p", [], [], [], some "the cat sat on the mat", some "a"⟩], none, none⟩
    ⟨0, "div", [], [], [⟨3, "p", [], [], [], some "the mat sat on the cat", some "b"⟩, ⟨2, "p", [], [], [], some "the cat sat on the mat", some "a"⟩],
      none, none⟩ = false := by
  decide +kernel

/-- the first two children of both views of `test_more_complex_diff` -/
def complexCommon : List Element :=
  [⟨3, "div", [], [], [⟨4, "input", [], [⟨"msg-input", "input"⟩], [], none, none⟩], none, none⟩,
   ⟨2, "div", [], [], [⟨5, "button", [], [⟨"msg-submit", "click"⟩], [], some "Send message", none⟩], none, none⟩]

/-- puck_liveview/src/dom/element/diff/test_diffing.rs:194-364 `test_more_complex_diff` -/
example : diffsTo ⟨0, "div", [("class", "message-list")], [], complexCommon, none, none⟩
    ⟨0, "div", [("class", "message-list")], [], complexCommon ++ [⟨9, "div", [("class", "message-container")], [],
      [⟨8, "p", [("class", "message-sent-at")], [], [], some "1970-01-25 06:34:13", none⟩,
       ⟨6, "p", [("class", "message-author")], [], [], some "[username not set]", none⟩,
       ⟨7, "p", [("class", "message-contents")], [], [], some "sending message", none⟩], none, none⟩], none, none⟩ = true := by
  decide +kernel

/-- puck_liveview/src/dom/element/render.rs:48-98 `test_render_nested_tags`: what is rendered (that a browser reads it as these elements is C91) -/
example : let tree : Element := ⟨0, "div", [], [], [⟨1, "p", [], [], [], some "the cat sat on the mat", some "a"⟩,
      ⟨2, "p", [], [], [], some "the mat sat on the cat", some "b"⟩], none, none⟩
    tree.renderHtml = "<div  ><p  >the cat sat on the mat</p><p  >the mat sat on the cat</p></div>" := by
  decide +kernel

/-- `node.wrap().into_element(&mut IdGen::new())` -/
def fromNode (n : BodyNode) : Element := ((intoElement n.wrap 0).map (·.1)).getD (.blank 0 "")

/-- puck_liveview/src/html/mod.rs:227-256 `test_html_conversion`, with the files `tree`, `bigger_tree` and `id_not_starting_from_zero` -/
example : intoElement (BodyNode.wrap (.div [])) 0 = some (⟨0, "div", [], [], [], none, none⟩, 1) ∧
    intoElement (((BodyNode.wrap (.div [])).child (BodyNode.wrap (.h1 ⟨[], "Heading 1"⟩))).child
        ((BodyNode.wrap (.input [("type", "submit")])).listener ⟨"a_listener", "click"⟩)) 0 =
      some (⟨0, "div", [], [], [⟨1, "h1", [], [], [], some "Heading 1", none⟩,
        ⟨2, "input", [("type", "submit")], [⟨"a_listener", "click"⟩], [], none, none⟩], none, none⟩, 3) ∧
    intoElement (((BodyNode.wrap (.form [])).child (BodyNode.wrap (.input [("type", "text")]))).child (BodyNode.wrap (.input [("type", "submit")]))) 1 =
      some (⟨1, "form", [], [], [⟨2, "input", [("type", "text")], [], [], none, none⟩, ⟨3, "input", [("type", "submit")], [], [], none, none⟩], none, none⟩, 4) :=
  ⟨rfl, rfl, rfl⟩

/-- puck_liveview/src/regressions/mod.rs:11-26 `diffing_regression_2021_06_06` -/
example : diffsTo (fromNode (.h1 ⟨[("¡", "")], ""⟩)) (fromNode (.h1 ⟨[], ""⟩)) = true := by decide +kernel

/-- puck_liveview/src/regressions/mod.rs:28-176 `diffing_regression_2022_01_23` -/
example : diffsTo
    ⟨0, "div", [], [], [
      ⟨1, "div", [], [], [⟨2, "input", [("type", "text"), ("value", "name"), ("placeholder", "username...")], [⟨"set_username", "input"⟩], [], none, none⟩],
        none, none⟩,
      ⟨3, "div", [], [], [⟨4, "input", [("type", "submit")], [⟨"initialize_username", "click"⟩], [], none, none⟩], none, none⟩], none, none⟩
    ⟨0, "div", [], [], [⟨1, "div", [], [], [
      ⟨2, "p", [], [], [], some "Hello teymour (user_id: 0)!", none⟩,
      ⟨3, "div", [], [], [⟨4, "input", [("placeholder", "send a new message..."), ("type", "text"), ("value", "")], [⟨"update_message_contents", "input"⟩], [],
        none, none⟩], none, none⟩,
      ⟨5, "div", [], [], [⟨6, "input", [("type", "submit"), ("value", "send message")], [⟨"submit_message", "click"⟩], [], none, none⟩], none, none⟩],
      none, none⟩], none, none⟩ = true := by
  decide +kernel

/-- puck_liveview/src/regressions/mod.rs:178-198 `simple_listener_test` -/
example : diffsTo ⟨0, "", [], [⟨"one", "two"⟩, ⟨"three", "four"⟩], [], none, none⟩ ⟨0, "", [], [⟨"one", "two"⟩], [], none, none⟩ = true := by decide +kernel

/-! The tests of puck_liveview/tests/diffing.rs (feature `_fuzz`).  `wrap` does not look at the children of a malvolio node, so these are left out. -/

/-- puck_liveview/tests/diffing.rs `many_cov_hits (first)` -/
example : diffsTo (fromNode (.a ⟨[], ""⟩))
    (fromNode (.label ⟨[], ""⟩)) = true := by
  decide +kernel

/-- puck_liveview/tests/diffing.rs `many_cov_hits (second)` -/
example : diffsTo (fromNode (.img [("9", "6"), ("p", ""), ("F", "")]))
    (fromNode (.h2 ⟨[("p", ""), ("C", ""), ("9", "")], ""⟩)) = true := by
  decide +kernel

/-- puck_liveview/tests/diffing.rs `max_cov_hits` -/
example : diffsTo (fromNode (.h2 ⟨[("73", ""), ("F", "k"), ("1CB66bp7saGlSaY1j", "p3AX"), ("g54Wr", ""), ("t", "Y"), ("O", "Z7"), ("Iaq6", ""), ("H", ""), ("46", "7"), ("S3", ""), ("d", ""), ("FeB", ""), ("e6", "1"), ("eo", ""), ("2", ""), ("1", "3"), ("11", "V"), ("o", ""), ("N", "h"), ("8", "A"), ("03", ""), ("i", ""), ("pa", ""), ("312RPqrkF6nFuk3vdhZ8FOL", "8FGWGKcAn6e"), ("de4", "q"), ("L", ""), ("K", ""), ("88", ""), ("NX2T", ""), ("m0", ""), ("m", ""), ("V8", ""), ("El", "e2"), ("0", ""), ("1N", "b"), ("w01", "6"), ("f", ""), ("b3", ""), ("9", "uni"), ("sf", ""), ("nR", ""), ("4h5sjgcV5juESPjm2I5VilqD", "7q35G8Y0AR4C6A"), ("6b8", ""), ("D", ""), ("z", "s"), ("kY", ""), ("Oc", ""), ("6", ""), ("Y", ""), ("aN", ""), ("Z", ""), ("r", ""), ("M", ""), ("e", "iiP"), ("C", "9"), ("B", ""), ("0J", ""), ("3orR4w7pOO35q", ""), ("Us", ""), ("5", ""), ("7", ""), ("1ry962G8klM5v41qDpfvQ093BGfRonf9Ij1p", "zp8K3Zf6JoiLg"), ("I", ""), ("l", ""), ("c", ""), ("er", ""), ("X3", ""), ("w", "J5Y"), ("R", "7"), ("U", ""), ("n", ""), ("8N", ""), ("Ne", ""), ("oK", ""), ("p", "wkNqQ"), ("u", ""), ("g", ""), ("b", "F"), ("4OB", ""), ("Q", ""), ("V", ""), ("A", ""), ("6VDM", "3wN1s"), ("h", "N"), ("48", ""), ("G", "5whqU"), ("N3", ""), ("X", ""), ("s", ""), ("68", "6"), ("S", ""), ("a", ""), ("Awrv1Eb128Wc", "m1v"), ("k", ""), ("y7", ""), ("jtq", ""), ("x", ""), ("q", "e"), ("ep", ""), ("x0MhH", ""), ("v", ""), ("4", ""), ("01", "4FTb1"), ("P", "X"), ("k40", "L"), ("E", ""), ("T", ""), ("y", "K"), ("jsdTvQrrmK74022", "OTDJlkZM71v4lNW8"), ("GUw", "OcUB9G")], ""⟩))
    (fromNode (.form [("3", ""), ("9", ""), ("Ye", ""), ("G", "L"), ("n", "e3N"), ("sZ", "H"), ("220H", ""), ("P", "")])) = true := by
  decide +kernel

end Puck.RepoTests
