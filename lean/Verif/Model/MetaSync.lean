import Verif.Model.Device
import Verif.Model.ClientServer
/-!
`_sync_meta` of the client (`dataplicity/client.py:252-287`) with `get_meta` and its cache (`dataplicity/device_meta.py:17-32`): what the device says
may change from sync to sync.

Simplification: nobody changes the dict or the list that `get_meta` returned (the client does not, see C80).
-/
namespace Verif.MetaSync
open Verif

/-- The items of a dict, as `_sync_meta` reads them; `none` is a `KeyError` or an item of another kind, which can not be.  (client.py:260-287) -/
def items (h : Device.Heap) (d : Nat) : Option Client.Meta :=
  match h.dicts d Device.kAgent, h.dicts d Device.kRevision, h.dicts d Device.kModel, h.dicts d Device.kOs, h.dicts d Device.kUname,
    h.dicts d Device.kIps with
  | some (.text a), some r, some (.text m), some (.text o), some (.text u), some (.list l) =>
    some ⟨a, match r with | .text t => some t | _ => none, m, o, u, h.lists l⟩
  | _, _, _, _, _, _ => none

/-- What a sync gets of the device: the cache as it is then, and the information.  (client.py:254-258) -/
def info (h : Device.Heap) (f : Device.Facts) : Device.Heap × Except Client.Raised Client.Meta := match Device.getMeta h f with
  | (h', .ok d) => match items h' d with
    | some m => (h', .ok m)
    | none => (h', .error .other)
  | (h', .error _) => (h', .error .other)

/-- What happens to the client: a sync on a device that says `f`, or anything else.  (client.py:191-225, m2mmanager.py:120-125) -/
inductive Happening where
  | sync (f : Device.Facts) (syncId : Text) (net : Client.Net)
  | disk (e : Client.DiskEnv)
  | tags (e : Client.TagEnv)
  | identity (i : Bytes) (reply : JsonRpc.Reply)

/-- The move of the client; `sent` says whether the information was sent, then the device is not asked.  (client.py:234-244) -/
def happen (h : Device.Heap) (sent : Bool) : Happening → Device.Heap × Client.Move
  | .sync f id net =>
    if sent then (h, .event (.sync ⟨.error .other, id, net⟩))
    else match info h f with
      | (h', i) => (h', .event (.sync ⟨i, id, net⟩))
  | .disk e => (h, .event (.disk e))
  | .tags e => (h, .event (.tags e))
  | .identity i r => (h, .identity i r)

/-- The moves of the client in a history.  (client.py:191-250) -/
def moves {α : Type} (cfg : Client.Config) (s : Client.State) (m : Client.Manager) (h : Device.Heap) : List (Happening × α) → List (Client.Move × α)
  | [] => []
  | (x, a) :: xs =>
    let r := happen h s.sentMeta x
    let n := Client.move cfg s m r.2
    (r.2, a) :: moves cfg n.1 n.2.1 r.1 xs

end Verif.MetaSync
