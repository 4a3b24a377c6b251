import Verif.Model.Frame
import Verif.Model.Upgrade
import Verif.Model.Json
import Verif.Spec.Rfc6455
import Verif.Spec.Base64
import Verif.Spec.HttpGrammar
import Verif.Spec.Mime
import Verif.Spec.Form
import Verif.Spec.Html
import Verif.Spec.Decimal
import Verif.Lemmas.Json
/-!
# Validation of the specifications: the standards' own examples

The readers and writers in `Verif/Spec` are what the theorems compare puck with.  Here they are run (by the kernel) on the examples that the standards print.
These are checks of the specifications, not proofs of properties.
-/
namespace Puck.Standards

open Puck Rfc6455

/-! ## RFC 6455, section 5.7 -/

/-- A single-frame unmasked text message: `0x81 0x05 0x48 0x65 0x6c 0x6c 0x6f` (contains "Hello"). -/
example : decodeServer [0x81, 0x05, 0x48, 0x65, 0x6c, 0x6c, 0x6f] = some (⟨true, false, false, false, 1, strBytes "Hello"⟩, []) ∧
    (send (.text "Hello") ⟨[], none⟩).2.out = [0x81, 0x05, 0x48, 0x65, 0x6c, 0x6c, 0x6f] := by decide +kernel

/-- A single-frame masked text message: `0x81 0x85 0x37 0xfa 0x21 0x3d 0x7f 0x9f 0x4d 0x51 0x58` (contains "Hello"). -/
example : (⟨true, false, false, false, 1, (0x37, 0xfa, 0x21, 0x3d), strBytes "Hello", .short⟩ : ClientFrame).encode =
      [0x81, 0x85, 0x37, 0xfa, 0x21, 0x3d, 0x7f, 0x9f, 0x4d, 0x51, 0x58] ∧
    (Frame.parse 64 [.data [0x81, 0x85, 0x37, 0xfa, 0x21, 0x3d, 0x7f, 0x9f, 0x4d, 0x51, 0x58]]).1 =
      .ok ⟨true, false, false, false, .text, strBytes "Hello"⟩ := by decide +kernel

/-- A fragmented unmasked text message: `0x01 0x03 0x48 0x65 0x6c` (contains "Hel") and `0x80 0x02 0x6c 0x6f` (contains "lo"). -/
example : decodeAll 3 [0x01, 0x03, 0x48, 0x65, 0x6c, 0x80, 0x02, 0x6c, 0x6f] =
    [⟨false, false, false, false, 0x1, strBytes "Hel"⟩, ⟨true, false, false, false, 0x0, strBytes "lo"⟩] := by decide +kernel

/-- An unmasked ping: `0x89 0x05 0x48 0x65 0x6c 0x6c 0x6f`. -/
example : decodeServer [0x89, 0x05, 0x48, 0x65, 0x6c, 0x6c, 0x6f] = some (⟨true, false, false, false, 9, strBytes "Hello"⟩, []) ∧
    kindOf 9 = .ping := by decide +kernel

/-- Its masked pong: `0x8a 0x85 0x37 0xfa 0x21 0x3d 0x7f 0x9f 0x4d 0x51 0x58`. -/
example : (⟨true, false, false, false, 10, (0x37, 0xfa, 0x21, 0x3d), strBytes "Hello", .short⟩ : ClientFrame).encode =
      [0x8a, 0x85, 0x37, 0xfa, 0x21, 0x3d, 0x7f, 0x9f, 0x4d, 0x51, 0x58] ∧
    (Frame.parse 64 [.data [0x8a, 0x85, 0x37, 0xfa, 0x21, 0x3d, 0x7f, 0x9f, 0x4d, 0x51, 0x58]]).1 =
      .ok ⟨true, false, false, false, .pong, strBytes "Hello"⟩ := by decide +kernel

/-- 256 bytes of binary: `0x82 0x7E 0x0100`; 64KiB of binary: `0x82 0x7F 0x0000000000010000`. -/
example : headBytes true false false false 2 false .medium 256 = [0x82, 0x7e, 0x01, 0x00] ∧
    headBytes true false false false 2 false .long 65536 = [0x82, 0x7f, 0, 0, 0, 0, 0, 1, 0, 0] ∧
    ((send (.binary (List.replicate 256 7)) ⟨[], none⟩).2.out.take 4) = [0x82, 0x7e, 0x01, 0x00] := by decide +kernel

/-- The same header from the model of puck, for every payload of 64 KiB. -/
example (b : Bytes) (h : b.length = 65536) :
    UInt8.ofNat (firstByte true false false false 2) :: formatLength b.length :: extLength b.length = [0x82, 0x7f, 0, 0, 0, 0, 0, 1, 0, 0] := by
  rw [h]; decide +kernel

/-! ## RFC 4648, section 10 -/

/-- BASE64("") = "" … BASE64("foobar") = "Zm9vYmFy" -/
example : [("", ""), ("f", "Zg=="), ("fo", "Zm8="), ("foo", "Zm9v"), ("foob", "Zm9vYg=="), ("fooba", "Zm9vYmE="), ("foobar", "Zm9vYmFy")].all
    (fun p => Base64.decode (strBytes p.2) == some (strBytes p.1) && base64 (strBytes p.1) == strBytes p.2) = true := by decide +kernel

/-! ## FIPS 180-4 / RFC 3174, section 7.3 -/

/-- `"abc"` and the 56 characters of TEST2. -/
example : Sha1.sha1 (strBytes "abc") =
      [0xa9, 0x99, 0x3e, 0x36, 0x47, 0x06, 0x81, 0x6a, 0xba, 0x3e, 0x25, 0x71, 0x78, 0x50, 0xc2, 0x6c, 0x9c, 0xd0, 0xd8, 0x9d] ∧
    Sha1.sha1 (strBytes "abcdbcdecdefdefgefghfghighijhijkijkljklmklmnlmnomnopnopq") =
      [0x84, 0x98, 0x3e, 0x44, 0x1c, 0x3b, 0xd2, 0x6e, 0xba, 0xae, 0x4a, 0xa1, 0xf9, 0x51, 0x29, 0xe5, 0xe5, 0x46, 0x70, 0xf1] := by
  decide +kernel

/-- The empty message. -/
example : Sha1.sha1 [] =
    [0xda, 0x39, 0xa3, 0xee, 0x5e, 0x6b, 0x4b, 0x0d, 0x32, 0x55, 0xbf, 0xef, 0x95, 0x60, 0x18, 0x90, 0xaf, 0xd8, 0x07, 0x09] := by decide +kernel

/-! ## RFC 7230, section 2.1 -/

/-- The client request of the example. -/
example : Http.readRequest (strBytes
      "GET /hello.txt HTTP/1.1\r\nUser-Agent: curl/7.16.3 libcurl/7.16.3 OpenSSL/0.9.7l zlib/1.2.3\r\nHost: www.example.com\r\nAccept-Language: en, mi\r\n\r\n") =
    some ⟨strBytes "GET", strBytes "/hello.txt",
      [(strBytes "User-Agent", strBytes "curl/7.16.3 libcurl/7.16.3 OpenSSL/0.9.7l zlib/1.2.3"), (strBytes "Host", strBytes "www.example.com"),
       (strBytes "Accept-Language", strBytes "en, mi")], []⟩ := by decide +kernel

/-- The server response of the example. -/
example : Http.readResponse (strBytes
      "HTTP/1.1 200 OK\r\nDate: Mon, 27 Jul 2009 12:28:53 GMT\r\nServer: Apache\r\nETag: \"34aa387-d-1568eb00\"\r\nContent-Length: 51\r\nVary: Accept-Encoding\r\nContent-Type: text/plain\r\n\r\nHello World! My payload includes a trailing CRLF.\r\n") =
    some ⟨200, strBytes "OK",
      [(strBytes "Date", strBytes "Mon, 27 Jul 2009 12:28:53 GMT"), (strBytes "Server", strBytes "Apache"),
       (strBytes "ETag", strBytes "\"34aa387-d-1568eb00\""), (strBytes "Content-Length", strBytes "51"), (strBytes "Vary", strBytes "Accept-Encoding"),
       (strBytes "Content-Type", strBytes "text/plain")], strBytes "Hello World! My payload includes a trailing CRLF.\r\n"⟩ ∧
    (strBytes "Hello World! My payload includes a trailing CRLF.\r\n").length = 51 ∧ Decimal.value (strBytes "51") = 51 := by decide +kernel

/-- Section 3.2.4: no white space between the name and the colon. -/
example : Http.readRequest (strBytes "GET / HTTP/1.1\r\nHost : a\r\n\r\n") = none ∧
    Http.readRequest (strBytes "GET / HTTP/1.1\r\nHost: a\r\n") = none := by decide +kernel

/-! ## RFC 7231, section 3.1.1.1 -/

/-- `text/html;charset=utf-8`, `text/html;charset="utf-8"`: "all of the following examples are equivalent". -/
example : MimeSpec.params 3 ";charset=utf-8".toList = some [("charset".toList, "utf-8".toList)] ∧
    MimeSpec.params 3 ";charset=\"utf-8\"".toList = some [("charset".toList, "utf-8".toList)] ∧
    MimeSpec.params 3 ";a=\"x\\\"y;z\";b=c".toList = some [("a".toList, "x\"y;z".toList), ("b".toList, "c".toList)] := by decide +kernel

/-! ## HTML -/

/-- An element with attributes in the four syntaxes of 13.1.2.3: empty, unquoted, single-quoted, double-quoted. -/
example : tokenizeHtml "<input disabled value=yes type='checkbox' name=\"be evil\">a</P>" =
    some [.startTag "input".toList [("disabled".toList, []), ("value".toList, "yes".toList), ("type".toList, "checkbox".toList),
      ("name".toList, "be evil".toList)], .char 'a', .endTag "p".toList] := by decide +kernel

/-! ## RFC 8259 -/

/-- Written back without white space; what is compared below. -/
def text : Nat → Json.Value → List Char
  | 0, _ => []
  | k + 1, v =>
    match v with
    | .null => "null".toList
    | .bool b => if b then "true".toList else "false".toList
    | .num l => l
    | .str s => '"' :: (s.map Char.ofNat ++ ['"'])
    | .arr l => '[' :: (((l.map (text k)).intersperse [',']).flatten ++ [']'])
    | .obj l => '{' :: (((l.map fun p => '"' :: (p.1.map Char.ofNat ++ ('"' :: ':' :: text k p.2))).intersperse [',']).flatten ++ ['}'])

def shown (s : String) : Option String := (Json.parse s).map fun v => String.ofList (text 20 v)

/-- Section 13: the first example. -/
example : shown "{\n\"Image\": {\n\"Width\":  800,\n\"Height\": 600,\n\"Title\":  \"View from 15th Floor\",\n\"Thumbnail\": {\n\"Url\":    \"http://www.example.com/image/481989943\",\n\"Height\": 125,\n\"Width\":  100\n},\n\"Animated\" : false,\n\"IDs\": [116, 943, 234, 38793]\n}\n}" =
    some "{\"Image\":{\"Width\":800,\"Height\":600,\"Title\":\"View from 15th Floor\",\"Thumbnail\":{\"Url\":\"http://www.example.com/image/481989943\",\"Height\":125,\"Width\":100},\"Animated\":false,\"IDs\":[116,943,234,38793]}}" := by
  decide +kernel

/-- Section 13: "three small JSON texts containing only values"; section 7: the G clef, `"\uD834\uDD1E"`, and `"\u005C"`. -/
example : shown "\"Hello world!\"" = some "\"Hello world!\"" ∧ shown "42" = some "42" ∧ shown "true" = some "true" ∧
    shown "\"\\uD834\\uDD1E\"" = some "\"𝄞\"" ∧ shown "\"\\u005C\"" = some "\"\\\"" ∧
    shown "[-122.026020, 37.371991, 1e5, 0.5E-3]" = some "[-122.026020,37.371991,1e5,0.5E-3]" := by decide +kernel

/-- Not JSON: section 6 (leading zeros, a bare point), section 3 (the literals are lower case), section 4 (names are strings), section 9. -/
example : ["01", "1.", ".5", "+1", "True", "{a:1}", "[1,]", "{\"a\":1,}", "'a'", "\"\t\"", "", "1 2", "\"\\x41\"", "\"abc"].all
    (fun s => (shown s).isNone) = true := by decide +kernel

/-! ## application/x-www-form-urlencoded (URL standard, section 5) -/

/-- "a b+c" and a character that is not ASCII. -/
example : Form.encode (strBytes "a b+c=é&*-._~") = strBytes "a+b%2Bc%3D%C3%A9%26*-._%7E" := by decide +kernel

end Puck.Standards
