import Verif.Props.ScanJson
import Verif.Props.ScanWire
/-!
C153 over the connection: the server that was told of a scan and reads its result.
-/
namespace Verif.ScanWire
open Verif WSClient RemoteDirectory Instructions JsonText

/-- The bytes of a scan that found `dirs`, at some time, with the keys in some order. -/
def Written (ftext : Option Int → Nat → Text) (fval : Text → Json) (dirs : Text → Option Scan.Info) (json : Bytes) : Prop :=
  ∃ root time filesFirst l, ScanJson.Items l dirs ∧ FloatsRead ftext fval [time] ∧ json = ScanJson.fileBytes ftext root time filesFirst l

/-- C153, over the connection: in the circumstances of C120 (the scan of thread `t` was the last one that the server was told of, and none is under
way), a server that reads the result to its end in pieces of any size has bytes that are JSON and list, for each path, exactly what this thread
found there.  `found` is what the scan of each thread found. -/
theorem c153_server (ftext : Option Int → Nat → Text) (fval : Text → Json) (other : Enc → Bytes → Option Text)
    (c : Cfg) (hs : c.Sane) (id : Text) (hp : Tame id) (hid : (utf8Encode id).length ≤ maxSize)
    (hsep : ¬ scanKey c <+: snapKey c id) (client : St) (hh : client.hung = false) (fs : FS) (t : Nat) (before between after : List Move)
    (env : RemoteFiles.Env) (start : Option Text) (e : Ev) (n : Nat) (found : Nat → Text → Option Scan.Info)
    (hfound : ∀ u json, .thread (.scan u (some json)) ∈ before → Written ftext fval (found u) json)
    (hfair : ∀ m ∈ before ++ .thread (.report t true) :: (between ++ .event env start e :: after), m.fair)
    (hz : Sized (run c (init client fs) (before ++ .thread (.report t true) :: (between ++ .event env start e :: after))).2)
    (hni : ∀ m ∈ before ++ .thread (.report t true) :: between, m.noInstruction)
    (hun : Undisturbed c (scanKey c) (init client fs) (before ++ .thread (.report t true) :: between))
    (hsays : results (step c (run c (init client fs) before).1 (.thread (.report t true))).2 = [[]])
    (hlast : [] ∉ results (run c (step c (run c (init client fs) before).1 (.thread (.report t true))).1 between).2)
    (hall : (results (run c (init client fs) (before ++ .thread (.report t true) :: between)).2).length =
      (before ++ .thread (.report t true) :: between).countP Move.asks)
    (hopen : requestIn e = some (.openFile (utf8Encode id) scanJson))
    (hans : RemoteFiles.openAnswers (utf8Encode id)
      (step c (run c (init client fs) (before ++ .thread (.report t true) :: between)).1 (.event env start e)).2 = [((n : Int), 0)])
    (hn : n ≤ maxSize)
    (hsn : Undisturbed c (snapKey c id)
      (step c (run c (init client fs) (before ++ .thread (.report t true) :: between)).1 (.event env start e)).1 after)
    (hok : ∀ m ∈ after, m.readsOk (utf8Encode id))
    (size count : Nat) (hc : n ≤ count * size)
    (hreq : readRequests (utf8Encode id) after = (List.range count).map (fun k => (((k * size : Nat) : Int), (size : Int)))) :
    ∃ j, loadsBytes fval other ((RemoteFiles.readAnswers (utf8Encode id)
        (run c (step c (run c (init client fs) (before ++ .thread (.report t true) :: between)).1 (.event env start e)).1 after).2).map (·.data)).flatten = some j ∧
      ∀ p, ScanJson.listing j p = found t p := by
  obtain ⟨json, h1, h2, h3⟩ := c120_settled_partial c hs id hp hid hsep client hh fs t before between after env start e n hfair hz hni hun hsays hlast
    hall hopen hans hsn hok
  have hl : json.length = n := by omega
  obtain ⟨root, time, ff, l, hi, hf, rfl⟩ := hfound t json h1
  have hflat : ((RemoteFiles.readAnswers (utf8Encode id)
        (run c (step c (run c (init client fs) (before ++ .thread (.report t true) :: between)).1 (.event env start e)).1 after).2).map (·.data)).flatten =
      ScanJson.fileBytes ftext root time ff l := by
    rw [h3 (by omega), hreq, List.map_map, List.map_map]
    exact RemoteFiles.pieces _ size count (by omega)
  rw [hflat]
  exact ⟨_, (c151_roundtrip ftext fval other _ (by rw [ScanJson.floats_scan]; exact hf)).2, ScanJson.listing_json root time ff hi⟩

/-- The bytes of a scan of two directories. -/
def jsonTree : Bytes := ScanJson.fileBytes halves "/r".toList (none, 7) (fun _ => false)
  [("".toList, ⟨["a".toList], [("f".toList, 3)]⟩), ("a".toList, ⟨[], []⟩)]

/-- A thread writes it in two pieces; the server reads it in pieces of fifty bytes. -/
def treeMoves : List Move :=
  [.thread (.acquire 0), .thread (.scan 0 (some jsonTree)), .thread (.openFile 0 true), .thread (.write 0 2), .thread (.write 0 200), .thread (.close 0)]
def readFifty (o : String) : Move := .event {} none (.binary (asc ("li27e2:u1i" ++ o ++ "ei50ee")))

example : ((RemoteFiles.readAnswers (asc "u1") (run exampleCfg (init {} scanFS)
    (askScan :: treeMoves ++ told :: openScan :: [readFifty "0", readFifty "50"])).2).map (·.data)).flatten = jsonTree := by decide +kernel
example : (loadsBytes readHalves (fun _ _ => none) jsonTree).map (fun j => ["".toList, "a".toList, "b".toList].map (ScanJson.listing j)) =
    some [some ⟨["a".toList], [("f".toList, 3)]⟩, some ⟨[], []⟩, none] := by decide +kernel

end Verif.ScanWire
