import Verif.Model.JsonText
import Verif.Model.Services
/-!
The control messages of file and command services, as the bytes in the packet: `channel_control_write` writes the dict as JSON
(`dataplicity/m2m/wsclient.py:364-367`), and the packet takes the text in UTF-8 (`dataplicity/m2m/packetbase.py:141-142`).
-/
namespace Verif.Reports
open Verif JsonText

/-- `json.dumps(control_dict)` as bytes; the dicts have no floats in them.  (wsclient.py:366-367) -/
def controlText (l : List (Text × Json)) : Bytes := utf8Encode (dumps (fun _ _ => []) (.obj l))

/-- (fileservice.py:57, commandservice.py:51) -/
def sService : Text := "service".toList
/-- (fileservice.py:58, commandservice.py:51) -/
def sType : Text := "type".toList
/-- (fileservice.py:59, commandservice.py:51) -/
def sStatus : Text := "status".toList
/-- (fileservice.py:60, commandservice.py:51) -/
def sMsg : Text := "msg".toList
/-- (commandservice.py:120) -/
def sReturncode : Text := "returncode".toList
/-- (fileservice.py:58, commandservice.py:51) -/
def sError : Text := "error".toList
/-- (commandservice.py:51, 120) -/
def sCommand : Text := "command".toList
/-- (commandservice.py:120) -/
def sComplete : Text := "complete".toList
/-- (fileservice.py:57) -/
def sRemoteFile : Text := "remote-file".toList
/-- (fileservice.py:92) -/
def sIoerror : Text := "ioerror".toList

/-- `send_error` of both services (fileservice.py:53-63, commandservice.py:48-53); nobody gives `extra`. -/
def sendError (service status msg : Text) : Bytes :=
  controlText [(sService, .str service), (sType, .str sError), (sStatus, .str status), (sMsg, .str msg)]

/-- What a file service reports for an exception (fileservice.py:72, 92, 97); for errors of the web socket it reports nothing. -/
def fileReport : Services.Fail → Bytes
  | .io => sendError sRemoteFile sIoerror "unable to open file".toList
  | _ => sendError sRemoteFile sError "internal error, see agent logs".toList

/-- What a command service reports for an exception (commandservice.py:62, 115). -/
def commandReport (status : String) : Bytes := sendError sCommand status.toList "error running command".toList

/-- What is reported if it can not be launched; `error` is the text of the exception (commandservice.py:42). -/
def launchReport (error : Text) : Bytes := sendError sCommand sError error

/-- The message at the end; the return code is `None` if the command still runs (commandservice.py:119-121). -/
def completeReport (code : Option Int) : Bytes :=
  controlText [(sService, .str sCommand), (sType, .str sComplete), (sReturncode, match code with | some i => .int i | none => .null)]

end Verif.Reports
