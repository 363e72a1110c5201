import Verif.Proofs.JsonValue
import Verif.Model.JsonRpcWire
import Verif.Model.TermControl
/-!
C151: what the agent writes as JSON is JSON, and what it reads as JSON is read as JSON says.
-/
namespace Verif.JsonText
open Verif

/-- C151: `json.loads` gives a value for exactly the texts of JSON (and Python's three constants), and it is the one for which the text stands. -/
theorem c151_reads (fval : Text → Json) (s : Text) (v : Json) : loads fval s = some v ↔ Document fval s v := loads_iff fval s v

/-- C151: no text stands for two values. -/
theorem c151_unambiguous (fval : Text → Json) (s : Text) (v w : Json) (hv : Document fval s v) (hw : Document fval s w) : v = w :=
  Option.some.inj (((loads_iff fval s v).2 hv).symm.trans ((loads_iff fval s w).2 hw))

/-- C151: what `json.dumps` writes stands for the value that was written. -/
theorem c151_writes (ftext : Option Int → Nat → Text) (fval : Text → Json) (v : Json) (hf : FloatsRead ftext fval (floats v)) :
    Document fval (dumps ftext v) v :=
  ⟨[], dumps ftext v, [], by simp, spaces_nil, denotes_dumps v hf, spaces_nil⟩

/-- C151: so no two values are written alike. -/
theorem c151_faithful (ftext : Option Int → Nat → Text) (fval : Text → Json) (v w : Json) (hv : FloatsRead ftext fval (floats v)) (hw : FloatsRead ftext fval (floats w))
    (h : dumps ftext v = dumps ftext w) : v = w :=
  c151_unambiguous fval _ v w (c151_writes ftext fval v hv) (h ▸ c151_writes ftext fval w hw)

/-- C151: what is written consists of printable ASCII characters; as bytes it is these, one each. -/
theorem c151_ascii (ftext : Option Int → Nat → Text) (hf : ∀ a t, Printable (ftext a t)) (v : Json) :
    Printable (dumps ftext v) ∧ utf8Encode (dumps ftext v) = (dumps ftext v).map fun c => UInt8.ofNat c.toNat :=
  ⟨dumps_printable hf v, utf8_ascii (dumps_printable hf v)⟩

/-- C151: bytes that are JSON in UTF-8 are read as what they stand for: no other encoding is taken for theirs. -/
theorem c151_bytes (fval : Text → Json) (other : Enc → Bytes → Option Text) (s : Text) (v : Json) (h : Document fval s v) :
    loadsBytes fval other (utf8Encode s) = some v := by
  obtain ⟨⟨c, t, rfl, hc⟩, hn⟩ := document_ascii h
  have hd : detectEncoding (utf8Encode (c :: t)) = .utf8 := by
    have h0 := utf8_nonzero hn
    have he : utf8Encode (c :: t) = UInt8.ofNat c.toNat :: utf8Encode t := by
      rw [utf8Encode, List.flatMap_cons, encode_ascii hc]; rfl
    rw [he] at h0 ⊢
    exact detect_utf8 (by rw [u8_ofNat_toNat (by omega)]; exact hc) h0
  rw [loadsBytes, hd]
  simp only [utf8Decode_encode, Option.bind_some]
  exact (loads_iff fval _ _).2 h

/-- C151: of bytes in UTF-16 or UTF-32 that begin as JSON does, with two characters that are ASCII, and of bytes that begin with a byte order mark, the
encoding is recognised. -/
theorem c151_encodings (a b : UInt8) (ha : 0 < a.toNat ∧ a.toNat < 128) (hb : 0 < b.toNat ∧ b.toNat < 128) (r : Bytes) :
    detectEncoding (a :: 0 :: b :: 0 :: r) = .utf16le ∧ detectEncoding (0 :: a :: 0 :: b :: r) = .utf16be ∧
    detectEncoding (a :: 0 :: 0 :: 0 :: r) = .utf32le ∧ detectEncoding (0 :: 0 :: 0 :: a :: r) = .utf32be ∧
    detectEncoding (0xff :: 0xfe :: a :: 0 :: r) = .utf16 ∧ detectEncoding (0xfe :: 0xff :: 0 :: a :: r) = .utf16 ∧
    detectEncoding (0xff :: 0xfe :: 0 :: 0 :: r) = .utf32 ∧ detectEncoding (0 :: 0 :: 0xfe :: 0xff :: r) = .utf32 ∧
    detectEncoding (0xef :: 0xbb :: 0xbf :: r) = .utf8sig := by
  have h0 : a ≠ 0 := by rintro rfl; simp at ha
  have h1 : b ≠ 0 := by rintro rfl; simp at hb
  have h2 : a ≠ 255 := by rintro rfl; simp at ha
  have h3 : a ≠ 254 := by rintro rfl; simp at ha
  have h4 : a ≠ 239 := by rintro rfl; simp at ha
  simp [detectEncoding, detectPlain, List.isPrefixOf, h0, h1, h2, h3, h4, Ne.symm h0]

/-- C151: what the agent writes - a call, a batch, a scan, a control message - is read as what was written, by whoever reads JSON. -/
theorem c151_roundtrip (ftext : Option Int → Nat → Text) (fval : Text → Json) (other : Enc → Bytes → Option Text) (v : Json)
    (hf : FloatsRead ftext fval (floats v)) :
    loads fval (dumps ftext v) = some v ∧ loadsBytes fval other (utf8Encode (dumps ftext v)) = some v :=
  ⟨(loads_iff fval _ _).2 (c151_writes ftext fval v hf), c151_bytes fval other _ v (c151_writes ftext fval v hf)⟩

/-! ### Concrete cases -/

/-- Literals of floats for the examples: the tag `t` stands for the number `t + 0.5`. -/
def halves (_ : Option Int) (t : Nat) : Text := natTextF (t + 1) t ++ ['.', '5']

/-- How they are read. -/
def readHalves (s : Text) : Json := .flt none (digitsVal (s.takeWhile isDigit))

/-- A call with all kinds of values. -/
def exampleCall : Json :=
  JsonRpc.Call.json ⟨"m2m.associate".toList, .obj [("identity".toList, .str "a\"b\\ é😀\n".toList), ("n".toList, .int (-120)),
    ("t".toList, .flt none 7), ("l".toList, .arr [.null, .bool true, .arr [], .obj []])], some (.num 2)⟩

/-- It is written like this ... -/
example : dumps halves exampleCall =
    ("{\"jsonrpc\": \"2.0\", \"method\": \"m2m.associate\", \"params\": {\"identity\": \"a\\\"b\\\\ \\u00e9\\ud83d\\ude00\\n\", \"n\": -120, " ++
      "\"t\": 7.5, \"l\": [null, true, [], {}]}, \"id\": 2}").toList := by
  decide +kernel

/-- ... and read again. -/
example : loads readHalves (dumps halves exampleCall) = some exampleCall ∧
    loadsBytes readHalves (fun _ _ => none) (utf8Encode (dumps halves exampleCall)) = some exampleCall := by
  decide +kernel

/-- Its floats are as the theorems ask for. -/
example : FloatsRead halves readHalves (floats exampleCall) ∧ ∀ a t, Printable (halves a t) := by
  constructor
  · intro x hx
    have : floats exampleCall = [(none, 7)] := by decide +kernel
    rw [this] at hx
    rcases List.mem_singleton.1 hx with rfl
    refine ⟨by decide +kernel, .inl ⟨['7'], ['.', '5'], [], 7, by decide +kernel, .pos ⟨.one rfl, by decide⟩, .some (.one (c := '5') (n := 5) rfl), .none, .inl (by decide)⟩⟩
  · exact fun a t => printable_append (natText_printable _ _) (by unfold Printable; decide)

/-- Texts with white space and other ways to write, and texts that are not JSON. -/
example : loads readHalves "\n { \"a\" : [ 1 , -0 ,\t2.5e+1 ] , \"\\u0061\\/\":\"\\u00E9\\ud83D\\uDE00\" } \r".toList =
      some (.obj [("a".toList, .arr [.int 1, .int 0, .flt none 2]), ("a/".toList, .str "é😀".toList)]) ∧
    ["01", "1.", "+1", "[1,]", "{\"a\":1,}", "{a:1}", "'a'", "\"a", "\"\n\"", "\"\\x\"", "nul", "1 2", "", "[1", "\"\\ud800\""].map
      (fun s => loads readHalves s.toList) = List.replicate 15 none := by
  decide +kernel

/-- A request for a size as the server may write it sets the size of the terminal. -/
example : (TermControl.onControl { size := .null, fd := true }
      (loadsBytes readHalves (fun _ _ => none) (asc "{\"size\": [24,80], \"type\" : \"window_resize\"}"))).1.device =
    some { rows := 80, cols := 24 } := by
  decide +kernel

/-- Without a byte order mark two zeros show another encoding. -/
example : detectEncoding [0x7b, 0, 0x7d, 0] = .utf16le ∧ detectEncoding [0, 0, 0, 0x31] = .utf32be ∧ detectEncoding [0xef, 0xbb, 0xbf, 0x31] = .utf8sig ∧
    detectEncoding (asc "[1]") = .utf8 ∧ detectEncoding (asc "{}") = .utf8 := by
  decide +kernel

end Verif.JsonText
