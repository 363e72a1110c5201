import Verif.Model.WSClient
/-!
Model of `ChannelFile` and `Channel.get_file` (`dataplicity/m2m/wsclient.py:32-47, 164-165`): an object like a file that writes to a channel.

It has the client and the number of the channel (not the channel).  Other threads and the receive thread go on between writes, as in Model/WSClient;
a write is one step here, since nothing but the standard output and the websocket is touched by it.
-/
namespace Verif.ChannelFile
open Verif Verif.WSClient

/-- What happens: something to the client, or a write to a file of channel `n`; `out`: what the standard output does with the data (the call of
`output.write`, wsclient.py:43): takes it or raises (it is closed, or has no `buffer` and takes only text).  (wsclient.py:39-44) -/
inductive Act where
  | client (env : Env) (e : Ev)
  | write (n : Int) (d : Bytes) (out : Bool)

/-- The client, and what has been written to the standard output.  (wsclient.py:42-44) -/
structure FSt where
  client : St := {}
  stdout : Bytes := []

/-- `ChannelFile.write` (wsclient.py:39-44) with `channel_write` (355-357): the standard output first; if that raises, nothing is sent. -/
def write (s : FSt) (n : Int) (d : Bytes) (out : Bool) : FSt × List Out :=
  if out then ({ s with stdout := s.stdout ++ d }, chanOut n (.sendData d)) else (s, [])

/-- One step.  (wsclient.py:39-44) -/
def step (s : FSt) : Act → FSt × List Out
  | .client env e =>
    let r := WSClient.step env s.client e
    ({ s with client := r.1 }, r.2)
  | .write n d out => write s n d out

/-- A history.  (Model infrastructure.) -/
def run (s : FSt) : List Act → FSt × List Out
  | [] => (s, [])
  | a :: as =>
    let r := step s a
    let r' := run r.1 as
    (r'.1, r.2 ++ r'.2)

end Verif.ChannelFile
