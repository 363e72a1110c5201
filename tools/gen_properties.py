#!/usr/bin/env python3
"""Writes /verif/properties.jsonl.  One tuple per property: (id, title, statement, quantifier, why_tests_cant, anchors)."""
import json, os
P = []
def p(id, title, statement, quantifier, why, *anchors):
    P.append(dict(id=id, title=title, statement=statement, quantifier=quantifier, why_tests_cant=why, anchors=list(anchors)))

B = "dataplicity/m2m/bencode.py"
PB = "dataplicity/m2m/packetbase.py"
PK = "dataplicity/m2m/packets.py"
WS = "dataplicity/m2m/wsclient.py"
DI = "dataplicity/m2m/dispatcher.py"
# ---------------------------------------------------------------- bencode
p("C01", "Bencode round trip",
  "Decoding what encode() produced gives back the value that was encoded, with text turned into its UTF-8 bytes, tuples into lists, and dicts equal as mappings.",
  "every encodable value: byte strings and text of any length, integers of any size and sign, lists, tuples and dicts nested to any depth",
  "the value space is infinite and recursive; tests sample a few literals", f"{B}:encode", f"{B}:decode")
p("C02", "Bencode is canonical and unambiguous",
  "Two dicts that are equal as mappings encode to the same bytes whatever their insertion order, and two values with the same encoding are equal after decoding.",
  "every pair of encodable values and every insertion order of every dict inside them",
  "ranges over all permutations of all dicts and over all pairs of values", f"{B}:encode")
p("C03", "Bencode is self-delimiting",
  "When an encoded value is followed by any other bytes, the decoder returns that value and stops exactly at its end, so values written back to back are read back one by one; no encoding is a proper prefix of another.",
  "every encodable value and every byte string following it", "the suffix is arbitrary and unbounded", f"{B}:_decode")
p("C04", "Encode succeeds exactly on supported values",
  "encode() returns bytes if and only if the value is built from byte strings, text, integers, lists, tuples and dicts with byte-string keys; if anything else (None, a float, a bool, a dict with a non-bytes key) occurs anywhere inside, it raises and no bytes are produced.",
  "every value, with an unsupported part at any depth or none", "the unsupported part may be at any depth of an unbounded structure", f"{B}:encode")
p("C05", "Decode terminates on every input",
  "decode() returns a value or raises for every byte string; in particular a malformed or truncated message can not make it loop for ever.",
  "every byte string", "non-termination cannot be observed by a finite test; all inputs are quantified", f"{B}:_decode")
p("C06", "Truncated messages are not accepted as complete",
  "No proper prefix of an encoded list, dict or integer (in particular of an encoded packet) decodes to a value; it is never mistaken for a complete message.",
  "every encodable list, dict or integer and every point at which its encoding can be cut", "every cut point of every message", f"{B}:_decode", f"{PB}:PacketBaseType.from_bytes")
p("C07", "Decoded values are clean",
  "Whatever bytes are decoded, a value that comes back contains only byte strings, integers, lists and dicts (never text, floats or bools); a list never contains None; a value without None inside and with byte-string keys can be encoded again and decodes to itself.",
  "every byte string for which decode() returns", "ranges over all byte strings, well formed or not", f"{B}:_decode", f"{B}:encode")
# ---------------------------------------------------------------- packets
p("C08", "Packet round trip",
  "A packet of any registered type created from correctly typed values and encoded to bytes is read back by from_bytes() as a packet of the same type with the same attribute values.",
  "every registered packet type and every tuple of correctly typed, encodable attribute values", "all packet types times all attribute values", f"{PB}:PacketBaseType.from_bytes", f"{PB}:PacketBaseType.encode_binary", f"{PK}:M2MPacket")
p("C09", "Only well-typed packets come out of from_bytes",
  "If from_bytes() returns a packet, the bytes decode to a list whose first element is the number of that registered packet type, every declared attribute is present, has its declared type, and equals the list element at its position; surplus elements are ignored.",
  "every byte string", "all byte strings, including adversarial ones", f"{PB}:PacketBaseType.from_bytes", f"{PB}:PacketBaseType.from_body", f"{PB}:PacketBaseType.init_params")
p("C10", "Malformed packets are reported as packet errors",
  "For bytes that are not a well-formed packet, from_bytes() raises an error of the PacketError family and nothing else.",
  "every byte string that is not an encoded packet", "the error branch depends on arbitrary malformed bytes", f"{PB}:PacketBaseType.from_bytes")
p("C11", "Packet construction is checked and position/keyword agnostic",
  "Creating a packet by position or by keyword gives the same packet; text arguments become UTF-8 bytes; a missing or wrongly typed attribute raises PacketFormatError; nothing else does.",
  "every registered packet type and every argument list", "all argument lists for all types", f"{PB}:PacketBaseType.init_params", f"{PB}:PacketBaseType.create")
p("C12", "Packet numbers are unambiguous",
  "Each packet number belongs to at most one packet type and one packet class, and each class is registered under its own number.",
  "every packet type and class in the protocol table", "the whole table must be consistent, and lookups are made with any integer", f"{PK}:PacketType", f"{PB}:PacketMeta")
p("C13", "Passwords never reach the log",
  "The printable form of a packet, which is what is written to the logs and put in error messages, does not depend on the value of an attribute called password.",
  "every user name and every pair of passwords, complete or incomplete packets", "non-interference relates two runs for all secrets", f"{PB}:PacketBaseType.__repr__", f"{PK}:RequestLoginPacket")
# ---------------------------------------------------------------- dispatcher / wsclient
p("C14", "Incoming messages reach exactly the right handler",
  "A binary message leads to a handler call if and only if it decodes to a list starting with the number of a handled packet type followed by that type's attributes with the right types; the handler then receives those attribute values in order, and no other handler runs.",
  "every byte string", "all byte strings times all handlers", f"{DI}:Dispatcher.dispatch", f"{DI}:Dispatcher.dispatch_packet", f"{WS}:WSClient.on_packet")
p("C15", "No message stops the receive loop",
  "Whatever websocket events and message bytes arrive, an error while handling one of them is logged and the next event is still handled.",
  "every finite sequence of websocket events with arbitrary contents", "all sequences of arbitrary messages", f"{WS}:WSClient.run", f"{WS}:WSClient.on_event")
p("C16", "Pings are answered",
  "Each ping message is answered by exactly one pong carrying the first 1024 bytes of its data (so exactly its data when it is not longer), whatever state the client is in.",
  "every ping payload and client state", "all payload sizes around and beyond the limit", f"{WS}:WSClient.handle_ping")
p("C17", "Unknown messages have no effect",
  "A message whose type number is unknown, or known but not handled, changes nothing and sends nothing.",
  "every message with such a type, in every client state", "all other type numbers and all bodies", f"{WS}:WSClient.on_packet", f"{DI}:Dispatcher.on_missing_handler")
p("C18", "A stale identity is never reused after a disconnect",
  "When the websocket becomes ready the client sends exactly one hand-shake: a join request if it has no identity, otherwise an identify request with its current identity; after a disconnect and until the server assigns a new one, it only ever asks to join.",
  "every history of websocket events", "all event histories", f"{WS}:WSClient.on_ready", f"{WS}:WSClient.on_disconnected", f"{WS}:WSClient.handle_set_identity")
p("C19", "The API server is told the current identity until it acknowledges it",
  "At every poll of the websocket the device's current identity is sent to the API server unless the server's last acknowledged identity is that one; once it was acknowledged it is not sent again while it stays the same.",
  "every history of identity changes, polls and RPC successes or failures", "all histories and failure patterns", "dataplicity/m2mmanager.py:M2MManager.set_identity", f"{WS}:WSClient.sync_identity", "dataplicity/client.py:Client.set_m2m_identity")
p("C20", "A closed client announces nothing",
  "After the m2m client was closed, no identity is accepted and none is ever announced to the API server, whatever arrives later.",
  "every history after close()", "all continuations", f"{WS}:WSClient.close", f"{WS}:WSClient.handle_set_identity")
p("C21", "Command callbacks fire once",
  "A callback registered for a command is called exactly once: with the result when the response arrives, or with None when the connection is lost first.",
  "every history of registrations, responses and disconnects", "all interleavings of responses and disconnects", f"{WS}:WSClient.callback", f"{WS}:WSClient.clear_callbacks", f"{WS}:WSClient.add_callback")
p("C22", "A channel without a callback is a lossless byte stream",
  "The bytes returned by successive read() calls, concatenated and followed by what is still buffered, are exactly the bytes that were routed to the channel, in order: nothing lost, duplicated or reordered, however messages and reads are split or interleaved.",
  "every interleaving of incoming messages and reads of any size", "all chunkings and read sizes", f"{WS}:Channel.on_data", f"{WS}:Channel.read")
p("C23", "Channel reads are bounded and complete",
  "read(n) returns at most n bytes, returns min(n, size) bytes, size is the number of unread bytes, and the channel is truthy exactly while a message is buffered.",
  "every reachable channel state and every n", "all states and counts", f"{WS}:Channel.read", f"{WS}:Channel.size", f"{WS}:Channel.__nonzero__")
p("C24", "A closed channel is silent",
  "The close callback of a channel is called at most once, and after the channel was closed no data or control callback is called, nothing more is written to the server for it, and no close is requested for it.",
  "every history of channel operations", "all histories after the close", f"{WS}:Channel.on_close", f"{WS}:Channel.on_data", f"{WS}:Channel.write", f"{WS}:Channel.close")
p("C25", "Data that arrived before a service attached reaches the service",
  "Data routed to a channel before a service registers its callback is handed to the service, before any later data.",
  "every history in which data precedes the registration", "depends on the order of network packets", f"{WS}:Channel.set_callbacks", f"{WS}:Channel.on_data")
p("C26", "A newly opened channel delivers data",
  "After the server announced a channel as opened, data routed to it is delivered until the channel is closed, also when its number was in use before a disconnect.",
  "every history of opens, closes and disconnects followed by an open", "all histories before the open", f"{WS}:WSClient.on_notify_open", f"{WS}:WSClient.hard_close_channels", f"{WS}:WSClient.get_channel")
p("C27", "Channels are independent",
  "A message for one channel changes no other channel.",
  "every state, message and pair of distinct channel numbers", "all pairs of channels and states", f"{WS}:WSClient.handle_route", f"{WS}:WSClient.get_channel")
p("C28", "A closed channel number can be used afresh",
  "After the server closed a channel, a new open with the same number yields a fresh channel with no buffered data, no callbacks and not closed.",
  "every history before the close", "all earlier histories", f"{WS}:WSClient.on_notify_close")
# ---------------------------------------------------------------- limiter and services
LI = "dataplicity/limiter.py"
p("C29", "The service limit is never exceeded",
  "The number of slots in use is at all times between 0 and the limit; a slot is refused exactly when the limit is reached, and a refusal changes nothing.",
  "every interleaving of acquisitions and releases", "all schedules", f"{LI}:Limiter.increment", f"{LI}:Limiter.decrement")
p("C30", "Slots are released exactly once",
  "Slots in use always equals the number of services that were launched and have not ended; a launch that fails gives its slot back; when all services have ended the count is 0; releasing never fails.",
  "every schedule of concurrent launches, launch failures and service ends", "all schedules of any number of threads", f"{LI}:limiter_context", "dataplicity/m2m/fileservice.py:FileService.__init__", "dataplicity/portforward.py:Connection._run")
p("C31", "A refused service is reported and the channel closed",
  "When a service can not be launched (limit reached or no thread), the remote side is told and a close of the channel is requested, and no slot stays in use.",
  "every limiter state and every launch failure", "all states and failures", "dataplicity/m2m/fileservice.py:FileService.__init__", "dataplicity/m2m/commandservice.py:CommandService.__init__", "dataplicity/portforward.py:Service.connect", "dataplicity/portforward.py:PortForwardManager.redirect_port", "dataplicity/m2mmanager.py:Terminal.launch")
FS = "dataplicity/m2m/fileservice.py"
p("C32", "File contents arrive intact",
  "If the channel stays open, the bytes sent over it are exactly the contents of the file; if it closes at some moment they are a prefix of it; each message holds between 1 and 1048576 bytes.",
  "every file content and every moment at which the channel may close", "all contents and all close points", f"{FS}:FileService._run_service")
p("C33", "A file transfer always ends with a close",
  "Every run of the file service, successful or not, requests the close of the channel exactly once and as its last action on it, reports a file that can not be read with an ioerror control message, and releases its slot.",
  "every file, I/O failure and close point", "all failure points", f"{FS}:FileService.run_service", f"{FS}:FileService._run_service")
CS = "dataplicity/m2m/commandservice.py"
p("C34", "Command output is forwarded intact",
  "The bytes sent over the channel are exactly the bytes read from the command's standard output, in order; standard error is never sent.",
  "every sequence of poll results and reads", "all schedules of the pipes", f"{CS}:CommandService._run_service")
p("C35", "A finished command is reported and its channel closed",
  "Whenever the command service ends, it has sent a complete message, requested the close of the channel, released its slot, and the child was killed if still running.",
  "every way in which the command service can end", "all failure points", f"{CS}:CommandService.run_service", f"{CS}:CommandService._run_service")
p("C36", "The command service ends when the command ends",
  "Once the command has ended and its output is drained, the service leaves its loop.",
  "every sequence of poll results that an operating system reports after the pipes were closed", "a never-ending loop cannot be observed by a test", f"{CS}:CommandService._run_service")
p("C37", "Echo",
  "On a channel with the echo service each message is sent back unchanged, once, in order, on the same channel, until the channel closes.",
  "every sequence of messages", "all message sequences", "dataplicity/m2m/echoservice.py:EchoService")
# ---------------------------------------------------------------- port forward
PF = "dataplicity/portforward.py"
p("C38", "Data for a local service arrives intact whenever the connection gets established",
  "As long as the socket accepts data, the bytes sent to the local socket are exactly the bytes routed to the channel, in order, whether they arrived before, while or after the connection was made.",
  "every interleaving of incoming messages with the connecting thread", "all interleavings of two threads", f"{PF}:Connection.on_channel_data", f"{PF}:Connection._flush_buffer", f"{PF}:Connection._connect")
p("C39", "The local service never sees a stream with a hole",
  "If sending to the local socket fails part way, nothing that was routed later is sent after the hole: the local service always sees a prefix of the routed bytes.",
  "every failure point", "all failure points", f"{PF}:Connection._flush_buffer")
p("C40", "Data from a local service is forwarded intact",
  "The bytes written to the channel are exactly the bytes received from the local socket, in order.",
  "every sequence of poll results and receives", "all schedules", f"{PF}:Connection._run")
p("C41", "Forwarded connections are isolated",
  "An error or hang-up on one forwarded connection ends that connection only; other and later connections keep forwarding.",
  "every set of connections and every schedule", "all schedules of many connections", f"{PF}:Connection._run", f"{PF}:PortForwardManager.close_event")
p("C42", "A local hang-up closes the channel",
  "When the local service closes its connection, the forwarding thread leaves its loop and requests the close of the channel.",
  "every sequence of poll results after end of file", "a never-ending loop cannot be observed by a test", f"{PF}:Connection._run")
p("C43", "A forwarding thread always closes its channel and releases its slot",
  "Whenever a forwarding thread ends, whether it connected or not, it has requested the close of its channel and released its slot.",
  "every way of ending and every clock reading", "all failure points and clock values", f"{PF}:Connection.run", f"{PF}:Connection._run")
p("C44", "Service lookup is consistent",
  "Looking up a service by port gives a service for that port, looking it up by name gives the service last added under that name.",
  "every sequence of service additions", "all sequences", f"{PF}:PortForwardManager.add_service", f"{PF}:PortForwardManager.get_service_on_port", f"{PF}:PortForwardManager.get_service")
p("C45", "Opening a service connects to the requested address only",
  "Opening a named service starts at most one connection, to the host and port registered for that name; redirecting a port connects to that port on 127.0.0.1; an unknown service connects to nothing; giving neither name nor port is an error.",
  "every service table and request", "all tables and requests", f"{PF}:PortForwardManager.open", f"{PF}:PortForwardManager.redirect_port", f"{PF}:Service.connect")
# ---------------------------------------------------------------- terminals
RP = "dataplicity/m2m/remoteprocess.py"
PX = "dataplicity/m2m/proxy.py"
p("C46", "Keyboard input reaches the terminal process completely",
  "All bytes of every message are written to the terminal, in order, however the operating system splits the writes.",
  "every message and every sequence of partial writes", "all partial write patterns", f"{PX}:Interceptor.write_master", f"{RP}:RemoteProcess.on_data")
p("C47", "Closing a terminal signals its process once and escalates once",
  "A terminal process gets at most one hang-up signal, gets a kill signal at most once, and only if it is still running at least 15 seconds after the hang-up.",
  "every history of closes and every timing of the process exit", "all timings", f"{RP}:RemoteProcess.close", f"{RP}:PidWaitThread.run")
p("C48", "A closed terminal leaves no process behind",
  "If the channel of a terminal is closed, its process is signalled, even when the close arrives while the process is being started.",
  "every interleaving of the launching thread and the close", "race between two threads", f"{RP}:RemoteProcess.close", f"{PX}:Interceptor.spawn")
p("C49", "Window sizes are applied as requested",
  "After a resize request to C columns and L lines, and for the initial size, the terminal device is given C columns and L rows.",
  "every size and every history of resizes before and after the start", "all sizes and histories", f"{PX}:Interceptor._set_pty_size", f"{PX}:Interceptor.resize_terminal", f"{RP}:RemoteProcess.on_control")
p("C50", "Terminal output is forwarded intact and its end is signalled",
  "The bytes sent over the channel are exactly the bytes read from the terminal, in order; when the process has ended the close of the channel is requested.",
  "every sequence of poll results", "all schedules", f"{PX}:Interceptor._copy", f"{RP}:RemoteProcess.master_read", f"{RP}:RemoteProcess.run")
p("C51", "Terminals run with the configured user and group only",
  "A terminal configured with a user and group runs its command with exactly that user and group or not at all.",
  "every account database and every configuration", "all account databases", f"{PX}:Interceptor.spawn")
# ---------------------------------------------------------------- remote directory
RD = "dataplicity/remote_directory.py"
p("C52", "Files outside the remote directory are not served",
  "Whatever path is requested, the file that is opened for it is lexically inside the remote directory, or is the scan result file when exactly that special name was requested; anything else is refused.",
  "every requested path and every remote directory root", "all path strings", f"{RD}:RemoteDirectory.add_upload", f"{RD}:validate_path")
p("C53", "Snapshots stay in the snapshot folder",
  "Whatever upload id is given, opening, reading and closing an upload touch only files inside the agent's snapshot folder.",
  "every upload id", "all id strings", f"{RD}:RemoteDirectory.get_snapshot_path", f"{RD}:RemoteDirectory.read_upload", f"{RD}:RemoteDirectory.close_upload")
p("C54", "Snapshots are isolated",
  "Reads of an upload return the contents that the file had when the upload was opened, whatever happens to the file or to other uploads in between, until that upload is closed or opened again; after closing, reads fail; closing twice is harmless.",
  "every history of opens, reads, closes and file changes", "all histories", f"{RD}:RemoteDirectory.add_upload", f"{RD}:RemoteDirectory.read_upload", f"{RD}:RemoteDirectory.close_upload")
p("C55", "Piecewise reads reassemble the file",
  "A read at offset o of size n returns the bytes o to o+n of the snapshot (fewer at its end); reading consecutive pieces of any positive size until nothing comes back yields the whole snapshot; the size reported at opening is its length.",
  "every content, offset and size", "all contents and piece sizes", f"{RD}:RemoteDirectory.read_upload", f"{RD}:RemoteDirectory.on_read_remote_file")
p("C56", "Snapshots respect the disk margin",
  "If disk usage can be determined, a snapshot is only made when at least 50,000,000 bytes stay free after it; otherwise the request fails and nothing is written.",
  "every disk usage and file size", "all numeric boundaries", f"{RD}:RemoteDirectory.add_upload")
p("C57", "Every remote file request gets exactly one reply",
  "Each open, read or write request is answered by exactly one result message which echoes its id and states success or failure.",
  "every request and every file system behaviour", "all failure branches for all inputs", f"{RD}:RemoteDirectory.on_open_remote_file", f"{RD}:RemoteDirectory.on_read_remote_file", f"{RD}:RemoteDirectory.on_write_remote_file")
p("C58", "Chunked downloads are assembled correctly",
  "If the chunks of a file are written at their offsets, in any order and without overlap, and the last one is marked final, the file stored in the remote directory has exactly the contents, and the position reported for each chunk is the end of the chunk.",
  "every content, every split into chunks and every order", "all splits and orders", f"{RD}:RemoteDirectory.on_write_remote_file", f"{RD}:RemoteDirectory.add_download")
p("C59", "Downloads never overwrite existing files",
  "A download is stored under a name that did not exist; if the requested name is taken the first free name(N) with N from 1 to 100 is used, and if all are taken the download is refused and nothing is changed.",
  "every file system state and name", "all file system states", f"{RD}:RemoteDirectory.copy_download")
p("C60", "Downloads stay in the remote directory",
  "Whatever destination is requested, a download is stored inside the remote directory, and chunk data is only written to the agent's download folder.",
  "every destination path, id and device path", "all path strings", f"{RD}:RemoteDirectory.copy_download", f"{RD}:RemoteDirectory.on_write_remote_file")
p("C61", "A failed chunk leaves no partial download and is reported",
  "If a chunk can not be written the reply carries the chunk's offset and failure code 2, the temporary file is removed if the system allows it, and nothing is stored in the remote directory.",
  "every failure", "all failure points", f"{RD}:RemoteDirectory.on_write_remote_file")
# ---------------------------------------------------------------- scan
SD = "dataplicity/scan_directory.py"
p("C62", "Scans omit hidden entries and respect the depth limit",
  "No scan result contains a file or directory whose name starts with a dot, nor a directory deeper than the limit.",
  "every directory graph and limit", "all directory graphs", f"{SD}:scan_directory")
p("C63", "Scans terminate and visit each directory once",
  "A scan of any finite directory structure terminates, even with recursive links and without depth limit, and no directory is listed twice.",
  "every finite directory graph, with cycles", "termination on cyclic graphs", f"{SD}:scan_directory")
p("C64", "Scans are complete",
  "On a directory tree without links and deeper parts the result lists exactly the visible directories with exactly their visible files, names and sizes.",
  "every finite tree", "all trees of any shape", f"{SD}:scan_directory")
DS = "dataplicity/directory_scanner.py"
p("C65", "Every scan request gets a result message",
  "Each request to scan is answered with exactly one result message: empty after a successful scan was stored, an error text otherwise.",
  "every history of requests, including concurrent ones and failing scans", "all schedules", f"{DS}:DirectoryScanner.perform_scan", f"{WS}:WSClient.on_scan_remote_directory")
p("C66", "Scans never run concurrently",
  "At most one scan reads the directory and writes the result file at any time, and success is reported only after the result file was written.",
  "every interleaving of scan threads", "all interleavings", f"{DS}:DirectoryScanner._perform_scan")
p("C67", "The scan result file is never half written",
  "At every point at which the agent may be killed, the scan result file holds the complete old or the complete new result.",
  "every crash point", "all crash points", f"{DS}:DirectoryScanner.write_scan")
# ---------------------------------------------------------------- jsonrpc
JR = "dataplicity/jsonrpc.py"
p("C68", "An RPC call returns only its own result",
  "call() returns a result only if the response is JSON-RPC 2.0, carries the id of this very call and no error; the value returned is the response's result, or None if it has none.",
  "every server response", "all JSON responses", f"{JR}:JSONRPC.call")
p("C69", "RPC errors are classified by code",
  "A response with an error raises RemoteError exactly for the five standard codes and RemoteMethodError for any other, carrying method, code, data and message of the response, or the standard message if it has none.",
  "every error object", "all codes and shapes", f"{JR}:JSONRPC._handle_error")
p("C70", "Call ids are fresh",
  "No two calls made with generated ids on one client, direct or batched, ever have the same id.",
  "every sequence of calls", "all sequences", f"{JR}:JSONRPC.new_call_id", f"{JR}:Batch.call")
p("C71", "Ids within a batch are unique",
  "A batch never holds two calls with the same id; a supplied id that is already used is refused.",
  "every sequence of additions to a batch", "all sequences", f"{JR}:Batch.call_with_id", f"{JR}:Batch.call")
p("C72", "A batch is sent exactly when its block succeeds",
  "Leaving the batch block sends all added calls once, in order, if no exception was raised and it was not abandoned, and sends nothing otherwise.",
  "every sequence of additions and every way to leave the block", "all sequences", f"{JR}:Batch.__exit__", f"{JR}:Batch.send")
p("C73", "Batch results belong to their calls",
  "After a batch was answered, get_result(id) gives the result of the response with that id whatever the order of the responses, raises the error of the response with that id, or raises KeyError if there is none.",
  "every reply, with responses in any order and with any ids, also repeated ones", "all orders and subsets of responses", f"{JR}:Batch.send", f"{JR}:Batch.get_result")
p("C74", "Bad server replies raise documented errors only",
  "Whatever the server replies, call() either returns or raises ProtocolError, RemoteError, RemoteMethodError or ServerUnreachableError.",
  "every reply text", "all replies", f"{JR}:JSONRPC.call", f"{JR}:JSONRPC._handle_error")
# ---------------------------------------------------------------- client
CL = "dataplicity/client.py"
p("C75", "Polling never fails",
  "Whatever the network, server, disk or tag script do, a poll returns normally, so that the agent keeps polling until it is told to exit.",
  "every combination of failures in every sequence of polls", "all failure combinations", f"{CL}:Client.poll", f"{CL}:Client.sync", f"{CL}:Client.run_forever")
p("C76", "Disk usage is reported at most hourly",
  "Two disk reports are always at least 3600 seconds apart, and the first poll reports.",
  "every sequence of polls at any clock readings, even a clock that jumps", "all clock histories", f"{CL}:Client.disk_poll")
p("C77", "Tags are sent when they changed, until acknowledged",
  "A poll sends the tag list exactly if it differs from the list last acknowledged by the server (nothing acknowledged at start); after an acknowledgement the same list is not sent again; after a failure it is sent again at the next poll.",
  "every history of tag lists and server answers", "all histories", f"{CL}:Client.tag_poll")
p("C78", "Device information is sent until acknowledged, then never again",
  "Device information is sent at every sync until the server has accepted all six items and the authentication, and never after that.",
  "every history of syncs and server answers", "all histories", f"{CL}:Client._sync", f"{CL}:Client._check_meta")
p("C79", "An identity counts as announced only if the server accepted it",
  "Announcing an identity returns it exactly if the server was reached, and answered both the authentication and the association without error; otherwise None; it never raises.",
  "every identity and server answer", "all answers", f"{CL}:Client.set_m2m_identity")
p("C80", "Device information can not be corrupted by a caller",
  "Changing the dict returned by the device information call does not change what later calls return.",
  "every history of calls and changes", "all histories with aliasing", "dataplicity/device_meta.py:get_meta")
# ---------------------------------------------------------------- misc
p("C81", "Tags are well formed",
  "Every tag taken from the output of the tag script is non-empty, at most 25 characters, contains no comma or white space, and tags keep their order; tags that satisfy this and are joined by separators are read back unchanged.",
  "every script output", "all outputs", "dataplicity/tags.py:get_tag_list")
p("C82", "The machine revision is the first revision entry",
  "The machine revision is the trimmed lower-case value of the first cpuinfo line whose trimmed, case-folded key is revision, and None if there is none.",
  "every cpuinfo content", "all contents", "dataplicity/rpi.py:get_machine_revision")
p("C83", "Interface addresses are extracted faithfully",
  "From the records returned by the system, the name and IPv4 address of every interface is returned, in order.",
  "every list of interface records", "all record lists", "dataplicity/iptool.py:get_all_interfaces")
p("C84", "Limits from the environment are usable",
  "Whatever the environment variable holds, the resulting limit is its integer value or the default, and the agent starts.",
  "every value of the environment variable", "all strings", "dataplicity/constants.py:get_environ_int", f"{LI}:Limiter.__init__")
p("C85", "Disk figures are consistent",
  "Reported used space plus space free for root equals total space, used is never negative or above total for a consistent file system, and the percentage lies between 0 and 100.",
  "every file system statistics record", "all numeric values, including zero", "dataplicity/disk_tools.py:disk_usage", "dataplicity/disk_tools.py:usage_percent")
p("C86", "The clock guard restarts exactly on big jumps",
  "The process is killed if and only if more than 180 seconds of wall clock passed during a one second check.",
  "every sequence of clock readings", "all clock histories", "dataplicity/clockcheck.py:ClockCheckThread.run")
p("C87", "Instructions do what they name and nothing else",
  "An instruction triggers exactly the one operation named by its action, with the arguments in the message, and an unknown action, or a message with missing arguments, triggers none.",
  "every instruction message", "all messages", "dataplicity/m2mmanager.py:M2MManager.on_instruction")
p("C88", "Feature flags are appended once",
  "The m2m address used has the feature query appended exactly when it had no query, and contains the feature names; applying the rule again changes nothing.",
  "every address", "all strings", f"{CL}:Client.__init__")
p("C89", "Encoding follows the bencode format",
  "The bytes returned by encode are the standard bencode notation of the value: decimal numbers without leading zeros, lengths in bytes, dict keys in ascending order.",
  "every supported value", "all nested values", "dataplicity/m2m/bencode.py:encode")
p("C90", "A channel sees exactly its own traffic",
  "From the moment a channel exists until the server closes it, its state and the callbacks it calls depend only on the data and control messages addressed to it, on disconnects and on the calls made on it, in their order, whatever else the client receives; and each write, control message or close request of a service becomes exactly one message carrying that channel's number.",
  "every history of the client before and after the channel was created", "all interleavings of the traffic of all channels",
  "dataplicity/m2m/wsclient.py:WSClient.handle_route", "dataplicity/m2m/wsclient.py:WSClient.channel_write", "dataplicity/m2m/wsclient.py:Channel")

p("C92", "Terminals keep track of their live processes",
  "A terminal knows every process it launched that is not closed; closing the terminal closes each of these exactly once, even if closing one of them raises, and no other.",
  "every history of launches, closed channels and closes", "all histories", "dataplicity/m2mmanager.py:Terminal.launch", "dataplicity/m2mmanager.py:Terminal.close", "dataplicity/m2mmanager.py:Terminal._prune_closed")
p("C93", "Downloads for a missing directory are refused",
  "A download whose destination lies in a directory that does not exist is answered with failure code 3 and changes nothing in the remote directory; the fallback to the top of the remote directory that the code prepares is never taken.",
  "every destination and file system state", "all destinations", f"{RD}:RemoteDirectory.copy_download", f"{RD}:RemoteDirectory.on_write_remote_file")
p("C94", "An identity is announced until it is accepted",
  "The m2m identity is announced to the server exactly if it is not empty and the last announcement was not an accepted one of the same identity.",
  "every history of identities and server answers", "all histories", "dataplicity/m2mmanager.py:M2MManager.set_identity", f"{CL}:Client.set_m2m_identity")
p("C95", "Device information can always be got",
  "The first request for device information returns all six items, whatever the files of the system contain; files that are missing give None or an empty text.",
  "every content of the files read", "all file contents", "dataplicity/device_meta.py:get_meta", "dataplicity/rpi.py:get_machine_revision", "dataplicity/rpi.py:get_model_name")
p("C91", "Requests of the server reach their handler exactly once",
  "The manager and the remote directory are called exactly once for each instruction or file request the server sends on an open connection, in the order in which they arrive, with what is in the message, and are never called otherwise.",
  "every sequence of messages", "all sequences of messages", "dataplicity/m2m/wsclient.py:WSClient.on_instruction_packet", "dataplicity/m2m/wsclient.py:WSClient.on_packet")
p("C96", "Instructions are served from the first moment",
  "Whenever the connection to the server is up, an instruction does what it would do in the running agent, also while the agent is still starting.",
  "every instruction at every step of the start", "depends on how start and network interleave", "dataplicity/m2mmanager.py:M2MManager.init", f"{CL}:Client._init")
p("C97", "A client has the serial and token it was given",
  "A serial or token given on the command line is the one used; otherwise it is the content of the file without the white space around it; a client that has started has a serial and a token that are not empty.",
  "every command line and file content", "all strings", f"{CL}:Client._init", f"{CL}:Client._read")
p("C98", "The exit status tells how the command ended",
  "The exit status is 0 exactly if logging could be set up and the subcommand ended without an exception; an exception of the subcommand gives 255 unless debugging, and a missing subcommand gives 1.",
  "every command line and outcome of the subcommand", "all combinations", "dataplicity/app.py:App.run", "dataplicity/app.py:main")
p("C99", "The log level is the one named",
  "Each level name, in upper or lower case, sets its level; quiet sets the highest; any other name is reported as an invalid log level.",
  "every level name", "all strings", "dataplicity/app.py:App._init_logging")
p("C100", "The end of the connection closes every channel",
  "When the connection to the server is lost or the receive thread ends, every channel is closed, and the close callback of each channel that was open is called exactly once.",
  "every history of events and every way in which the receive thread ends", "all histories and failures of the websocket", "dataplicity/m2m/wsclient.py:WSClient.run", "dataplicity/m2m/wsclient.py:WSClient.hard_close_channels")
p("C101", "The server receives exactly what was sent on a channel",
  "From the moment a channel exists until the server closes it, the messages for that channel among all the messages the server receives are, decoded, exactly the data, control messages and close requests that the calls on the channel have sent, in the same order, whatever happens on other channels.",
  "every history of events, every interleaving with other channels", "all histories and interleavings of threads", f"{WS}:WSClient.send", f"{WS}:Channel.write", f"{WS}:Channel.close", "dataplicity/m2m/packetbase.py:PacketBase.as_bytes")
p("C102", "A requested file arrives at the server",
  "What the server receives on the channel of a file service is the beginning of the file, then at most one error report, then at most one request to close, whatever happens meanwhile; if no operation fails and the channel is not ended, it is the whole file in non-empty pieces of at most 1 MiB followed by the request to close; and the thread of the service ends after a number of statements bounded by the size of the file.",
  "every file content, every interleaving with events of the client, every failure", "all interleavings of the service thread with the receive thread", "dataplicity/m2m/fileservice.py:FileService.run", f"{WS}:Channel.write", f"{WS}:WSClient.send")
p("C103", "Nothing of an old service is sent under its number after its channel was closed",
  "Once the server has closed a channel nothing that its service sends reaches the server any more with the number of the channel; in particular it does not reach a new channel that the server opens with the same number.",
  "every schedule of the service and the client", "needs a switch of threads between the check and the sending", f"{WS}:Channel.write", f"{WS}:WSClient.on_notify_close", f"{WS}:WSClient.get_channel")
p("C104", "Every message of the client is a well-formed packet",
  "Every message that the client sends is the wire form of a join, identify, data, pong, close, control or scan result packet with values of the right types.",
  "every history of events", "all histories", f"{WS}:WSClient.send", "dataplicity/m2m/packets.py:PacketType")
p("C105", "An echo service returns every message once, in order",
  "What the server receives on the channel of an echo service is at any moment the beginning of the sequence of messages it has sent to that channel, and the whole sequence once the receive thread has handled them, whatever other threads do meanwhile.",
  "every sequence of messages and every interleaving", "all sequences and interleavings", "dataplicity/m2m/echoservice.py:EchoService.on_data", f"{WS}:WSClient.handle_route", f"{WS}:Channel.on_data")
p("C106", "Decoding does not amplify",
  "The value decoded from a message has no more objects, bytes of strings and digits of integers together than the message has bytes.",
  "every message that decodes", "all messages", "dataplicity/m2m/bencode.py:decode")
p("C107", "A forwarded connection carries both directions unchanged",
  "On an open channel of a forwarded connection the server receives the pieces read from the local socket in order, followed by the request to close when the thread ends; and as long as the local socket accepts data, it gets the data that the server sent to the channel in order, what is missing being still in the buffer.",
  "every interleaving of the receive thread, the forwarding thread and other threads", "all interleavings", "dataplicity/portforward.py:Connection._run", "dataplicity/portforward.py:Connection.on_channel_data", f"{WS}:WSClient.handle_route")
p("C108", "What the server receives on a channel has no gaps",
  "Connections may be lost and made anew at any time.  The messages of a channel that reach the server are always the beginning of those that the service has sent: after a message was lost, no later message of the same channel arrives.",
  "every history of calls, losses of the connection and new connections", "needs a connection that is lost in a given moment", f"{WS}:WSClient.send_bytes", f"{WS}:WSClient.hard_close_channels", f"{WS}:Channel.write")
p("C109", "The calls of a service thread take effect in order",
  "Whatever sequence of writes, control messages and closes the thread of a service makes, the server receives the beginning of the sequence of their messages on the channel, and the whole of it after the thread has made its calls if the channel is not ended meanwhile.",
  "every sequence of calls and every interleaving with the receive thread", "all interleavings", f"{WS}:Channel.write", f"{WS}:Channel.send_control", f"{WS}:Channel.close")
p("C110", "The output of a command arrives at the server",
  "At every moment the data that the server has received on the channel of a command service is the beginning of the standard output of the command; after the command has ended, if the channel was not ended meanwhile, the server has received all the output, then the message with the return code, and last the request to close.",
  "every output of every command, every interleaving of the service with the client", "all outputs and interleavings", f"{CS}:CommandService.run", f"{WS}:Channel.write", f"{WS}:WSClient.send")
p("C111", "A file that the server reads over the connection is the file at the time of opening",
  "The server sends an open request with a plain id and a path and receives a size with code 0.  Then a file of that size was at the path inside the remote directory; and whatever events of the client, other requests and changes of files by other programs follow, as long as this id is not opened again or closed and nobody disturbs the snapshot, every read request for the id is answered exactly once, in order, with code 0 and exactly the requested bytes of the contents at the time of opening.  Consecutive pieces give the whole file.",
  "every id that is a plain file name, every file, every sequence of messages and other events", "all sequences of messages and file changes", f"{WS}:WSClient.on_binary", f"{RD}:RemoteDirectory.on_open_remote_file", f"{RD}:RemoteDirectory.on_read_remote_file")
p("C112", "A file that the server sends over the connection is stored if all chunks are acknowledged",
  "The server sends a file in write requests, in any order and with overlaps, the last one final, and every request is answered with code 0.  Then each answer has the position at the end of its chunk, and after the last request a file with exactly the contents sent lies at the name that is chosen for it, which was free; no other file was changed by it and the temporary file is gone; whatever other events and requests came between, as long as they do not name this temporary file.",
  "every content, every division into chunks, every sequence of messages and other events, every outcome of the system calls", "all divisions and interleavings with other requests", f"{WS}:WSClient.on_binary", f"{RD}:RemoteDirectory.on_write_remote_file")
p("C113", "Only well-formed resize requests change a terminal",
  "A control message that is not a well-formed resize request (an object with type window_resize and a size of two integers that fit in 16 bits) changes nothing about a terminal: neither the size of its window, nor whether its output is sent.  The window has the size of the last well-formed request.",
  "every sequence of control messages, JSON or not, before and after the start of the process", "all JSON values", f"{RP}:RemoteProcess.on_control", f"{PX}:Interceptor.resize_terminal", f"{PX}:Interceptor._set_pty_size")
p("C114", "Terminal input is written to the terminal only",
  "Data that the server sends to a terminal is never written to another file or connection of the agent, whatever other threads open and close.",
  "every interleaving of the receive thread, the thread of the terminal and other threads", "needs a descriptor that is reused in a given moment", f"{PX}:Interceptor.write_master", f"{PX}:Interceptor.spawn")
p("C115", "A terminal carries both directions unchanged",
  "While a terminal runs, the data that the server receives on its channel is at every moment the beginning of what was read from the terminal, and the bytes written to the process are the beginning of the data that the server has sent to the channel; both are complete once the threads have come to the end of their work.",
  "every output, every sequence of messages, every interleaving of the threads", "all interleavings", f"{RP}:RemoteProcess.master_read", f"{RP}:RemoteProcess.on_data", f"{WS}:WSClient.handle_route")
p("C116", "Calls on a server that follows JSON-RPC 2.0 give what the procedure gives",
  "If the server follows the JSON-RPC 2.0 specification, a direct call returns the result of the procedure or raises its error; a batch raises nothing, whatever calls and notifications it is made of, and get_result of each call returns the result of its procedure or raises its error, in whatever order the responses come.",
  "every server, every call, every batch, every order of the responses", "all servers and replies", f"{JR}:JSONRPC.call", f"{JR}:Batch._send", f"{JR}:Batch.get_result")
p("C117", "The server has the tags that the client takes for acknowledged",
  "At every moment the tags that the client takes for acknowledged, and does not send again, are the tags that the server has stored last, whatever requests and replies have been lost.",
  "every history of polls, syncs and announcements, every loss of requests and replies", "needs a reply that is lost in a given moment", f"{CL}:Client.tag_poll", f"{JR}:Batch._send")
p("C118", "The server has the information about the device that the client takes for sent",
  "Once the client takes the information about the device for sent, the server has all six parts of it, as they were found in one and the same sync, whatever requests and replies have been lost.",
  "every history of polls, syncs and announcements, every loss of requests and replies", "all histories and losses", f"{CL}:Client._sync", f"{CL}:Client._check_meta")
p("C119", "The server has the identity that the manager takes for announced",
  "At every moment the identity that the manager takes for announced, and does not announce again, is the one that the server has stored last, whatever requests and replies have been lost.",
  "every history of polls, syncs and announcements, every loss of requests and replies", "all histories and losses", f"{CL}:Client.set_m2m_identity", "dataplicity/m2mmanager.py:M2MManager.set_identity")
p("C120", "A server that was told of a scan reads its result",
  "A server that asks for a scan of the remote directory and is told that it succeeded, and then opens the special path for the result and is told a size with code 0, gets the length of the JSON of a scan, and its read requests are answered, in order and one by one, with exactly the bytes of this JSON.",
  "every interleaving of the receive thread and the scan threads, every sequence of messages and other events", "needs a second scan that runs at a given moment", f"{WS}:WSClient.on_scan_remote_directory", f"{DS}:DirectoryScanner", f"{RD}:RemoteDirectory.on_open_remote_file")
p("C121", "A blocking read of a channel waits only for data",
  "A thread that calls read with block=True waits only while no message is buffered, and is woken by the next message; without a time limit it returns at least one byte, and it returns when the channel is closed.  The bytes returned to all threads together are the bytes that arrived, in order.",
  "every number of threads, every interleaving, every sequence of messages and reads", "needs given interleavings of several threads", f"{WS}:Channel.read", f"{WS}:Channel.on_data", f"{WS}:Channel.on_close")
p("C122", "A file that the server asks for arrives on the channel it named",
  "After a message with the instruction read-file for a channel that nobody else uses, the server receives on this channel the beginning of that file, then at most one error report, then at most one request to close, and the whole file and the request to close if nothing fails and the channel is not ended; if the file can not be opened, the error report and the request to close; if all slots are taken or no thread can be started, SERVER_BUSY and the request to close.",
  "every history of the agent before and after, every number of other services running at the same time, every interleaving of all threads", "all interleavings of many services", "dataplicity/m2mmanager.py:M2MManager.open_file_service", f"{FS}:FileService", f"{LI}:Limiter")
p("C123", "The output of a command that the server asks for arrives on the channel it named",
  "After a message with the instruction run-command for a channel that nobody else uses, the data that the server receives on this channel is at every moment the beginning of the standard output of the command; once the service has done its work and if the channel is not ended, it has received all the output, then the message with the return code, and last the request to close; if all slots are taken or no thread can be started, an error message and the request to close.",
  "every history of the agent before and after, every number of other services running at the same time, every interleaving of all threads", "all interleavings of many services", "dataplicity/m2mmanager.py:M2MManager.open_command_service", f"{CS}:CommandService", f"{LI}:Limiter")
p("C124", "Services never use more slots than there are, and give them back",
  "In every history of instructions, failures, losses of the connection and steps of the services, the value of the limiter is the number of slots that services hold, which is never larger than the limit; every file and command service gives its slot back after a bounded number of its steps, whatever fails and whatever happens to its channel.",
  "every history of the agent, every number of services", "all histories", f"{LI}:Limiter.increment", f"{LI}:Limiter.decrement", f"{FS}:FileService.run_service", f"{CS}:CommandService.run_service")
p("C125", "Files outside the remote directory are not served, symbolic links included",
  "Whatever path is requested, and whatever symbolic links there are, the file that an accepted open request snapshots, whose size is reported and whose bytes are returned by reads, lies inside the place to which the path of the remote directory leads.",
  "every file system with symbolic links, every path, every behaviour of the operating system", "every arrangement of links", f"{RD}:RemoteDirectory.add_upload", f"{RD}:validate_path")
p("C126", "The agent's temporary files do not lead it to other files",
  "Whatever other programs have put into the folders for temporary files, opening, reading and closing an upload with a plain id, and storing the result of a scan, read and change only entries of these folders.",
  "every file system with symbolic links, every plain id, every behaviour of the operating system", "every arrangement of links", f"{RD}:RemoteDirectory.get_snapshot_path", f"{RD}:RemoteDirectory.close_upload", f"{DS}:DirectoryScanner.write_scan")
p("C127", "A download is stored inside the remote directory, symbolic links included",
  "Whatever symbolic links there are, the end of a download to a path that does not go up changes only the temporary file and places inside the place to which the path of the remote directory leads.",
  "every file system with symbolic links, every path that does not go up, every behaviour of the operating system", "every arrangement of links", f"{RD}:RemoteDirectory.copy_download")
p("C128", "A file of the remote directory can be fetched when nothing goes wrong",
  "If the server asks for an existing file of the remote directory under a plain id, the temporary folder exists, 50 MB stay free and the operating system does what it is asked, the request is answered once, with the size of the file and no failure; a server that then reads the size in consecutive pieces has the contents of the file at the time of opening, whatever else happens between.",
  "every file, path of names, id, file system, other event between", "every arrangement of files and every interleaving", f"{RD}:RemoteDirectory.add_upload", f"{RD}:RemoteDirectory.on_open_remote_file", f"{RD}:RemoteDirectory.on_read_remote_file")
p("C129", "A file sent by the server arrives when nothing goes wrong",
  "If the server sends a file in chunks that cover it, in any order, and the device is ready for each request in the state in which it comes (temporary folder, directory of the destination, a free name, an operating system that does what it is asked), every chunk is acknowledged at its end, and after the last one the file lies with exactly the contents sent under the first free name of the requested one and its numbered variants; the temporary file is gone and all other files are unchanged.",
  "every content, set of chunks, path of names, id, file system, other event between", "every order of chunks and every interleaving", f"{RD}:RemoteDirectory.add_download", f"{RD}:RemoteDirectory.on_write_remote_file", f"{RD}:RemoteDirectory.copy_download")
p("C130", "The language that decode accepts",
  "decode returns a value exactly if the input starts with an encoding of it as written down by a grammar (string lengths and integers in everything int() accepts, dict keys that are strings or integers, the last value winning for a repeated key, in the order of first occurrence), whatever follows; it raises exactly for the inputs of a second grammar, and never ends exactly for those of a third one, where the input ends within a string length; each input belongs to exactly one of the three.",
  "every byte string", "all inputs", f"{B}:_decode", f"{B}:decode")
p("C131", "The exit of a terminal process is collected",
  "After the hang-up of a terminal, the exit status of its process is collected in the first poll after its end, and polling stops there, if the process ends within a day; the agent gives up only after at least seven polls that found the process running, one of them at least a day after the start, and a process that runs on after that is left alone.",
  "every timing of the process exit and every clock", "all timings and clock jumps", f"{RP}:PidWaitThread.run")
p("C132", "An echo service that the server asks for sends back what the server sends to the channel it named",
  "After a message with the instruction open-echo for a free channel, what the server receives on that channel is at every moment the beginning of the messages that it sends to the channel, and all of them once they were handled.",
  "every history before the message, every traffic afterwards, every interleaving with other threads", "all histories and interleavings", "dataplicity/m2mmanager.py:M2MManager.open_echo_service", "dataplicity/m2m/echoservice.py:EchoService")
p("C133", "A connection that the server asks for goes to the port it named and uses the channel it named",
  "After a message with the instruction open-portforward or open-portredirect for a free channel, one connection is started, to the port of the named service or to the named port on 127.0.0.1; the server receives on that channel what is read from the local socket, in order, and the local socket gets what the server sends, in order; without a free slot, or if no thread can be started, the server receives SERVER_BUSY and the request to close; for an unknown service nothing changes.",
  "every history before the message, every traffic afterwards, every interleaving of the threads", "all histories and interleavings", f"{PF}:PortForwardManager.open_service", f"{PF}:PortForwardManager.redirect_port", f"{PF}:Service.connect", f"{PF}:Connection")
p("C134", "A terminal that the server asks for gets the input that the server sends afterwards",
  "After a message with the instruction open-terminal for a free channel, the process gets the data that the server sends to the channel, in order and completely, and the server receives the output of the process; without a free slot, or if no thread can be started, the server receives a message that says so and the request to close.",
  "every history before the message, every traffic afterwards, every interleaving of the threads", "all histories and interleavings; the time the process takes to start", "dataplicity/m2mmanager.py:M2MManager.open_terminal", "dataplicity/m2mmanager.py:Terminal.launch", f"{RP}:RemoteProcess")
p("C135", "Data for a terminal that does not run is refused message by message",
  "Each message for the channel of a terminal whose process has not started yet, or has ended, leads to exactly one request to close the channel; nothing is written, and the receive thread goes on with the next message.",
  "every sequence of messages, every interleaving with other threads", "all sequences and interleavings", f"{RP}:RemoteProcess.on_data", f"{PX}:Interceptor.stdin_read")
p("C136", "Limits of the interpreter only make messages be refused",
  "Whatever limits the interpreter has for nested calls and for the digits of numbers, decode does what it does without them or raises RecursionError or ValueError; data in bencode format is decoded exactly if it is not nested too deeply and no number is too long; and the client does at all times what it would do without limits if the messages that exceed them were empty.",
  "every limit, input and history of events", "all inputs and limits", f"{B}:decode", f"{B}:_decode", f"{WS}:WSClient.on_binary")
p("C137", "With limits of the interpreter, values are encoded correctly or not at all",
  "Whatever limits the interpreter has for nested calls and for the digits of numbers, encode returns bytes exactly if it would without the limits and the value is not nested too deeply and no number is too long, and then the same bytes; three nested calls are enough for every packet of the agent.",
  "every limit and value", "all values and limits", f"{B}:encode", f"{PB}:PacketBaseType.encode_binary")
p("C138", "A requested exit ends the agent",
  "After Client.exit was called, run_forever comes to its end as soon as both threads get on, with at most one more poll; it ends in no other case than after such a request, an interrupt, an exception of a poll or the failure to start the clock thread; an exception leaves it only if a poll raised it and it is no KeyboardInterrupt, if the clock thread could not be started or if an interrupt came during the end; when it has returned the clock thread has ended, so that it can not kill the process any more; and the process is killed only if more than 180 seconds passed during a check. As long as it is not told to end, it polls again after each wait.",
  "every interleaving of the main thread, the clock thread and the request, every clock", "all interleavings and clock jumps", f"{CL}:Client.run_forever", f"{CL}:Client.exit", "dataplicity/clockcheck.py:ClockCheckThread.run")
p("C139", "The end of the agent closes its terminals",
  "When the agent has come to its end, every process that a terminal launched and that was not closed has been closed.",
  "every history of terminals and every way to the end", "all histories", f"{CL}:Client.close", "dataplicity/m2mmanager.py:M2MManager.on_client_close", "dataplicity/m2mmanager.py:Terminal.close")
p("C140", "Every file in a scan can be fetched as listed",
  "A file that a scan lists under a directory leads, under the path of the directory followed by its name, to a regular file; the size listed is its size (or -1 if it could not be got); and a server that asks for this path gets this size and can read exactly its bytes, if the operating system does what it is asked.",
  "every file system with links, every behaviour of the operating system during the scan, every id and range", "all file systems and failures", "dataplicity/scan_directory.py:scan_directory", f"{DS}:DirectoryScanner._perform_scan", f"{RD}:RemoteDirectory.add_upload", f"{RD}:RemoteDirectory.read_upload")
p("C141", "A scan lists only what lies in the remote directory",
  "Whatever symbolic links there are, the directories and files that a scan lists lie inside the place to which the path of the remote directory leads.",
  "every file system with links, every behaviour of the operating system during the scan", "every arrangement of links", "dataplicity/scan_directory.py:scan_directory", f"{DS}:DirectoryScanner._perform_scan")
p("C142", "A scan of a directory without links lists exactly its visible files and directories",
  "If there are no links in the remote directory and the operating system answers, a scan ends without an exception; its result has exactly the directories less than ten levels deep whose path has no name that starts with a dot, and for each of them exactly the files in it that do not start with a dot, with their sizes, and exactly such directories, each once.",
  "every file system without links in the remote directory, every order of the listings", "all file systems", "dataplicity/scan_directory.py:scan_directory", f"{DS}:DirectoryScanner._perform_scan")
p("C143", "The log shows at most the first 32 bytes of the data in a packet",
  "The printable form of a packet, complete or not, depends only on the first 32 bytes and on the length of each byte string in it that is longer than 32 bytes.",
  "every packet class and every pair of values", "relates two runs for all values", f"{PB}:PacketBaseType.__repr__")
p("C144", "The local service is told the end of the stream when the server closes the channel",
  "After the server has closed the channel of a forwarded connection, the local service has been given all bytes routed before and the write side of the local socket is shut down; it is shut down in no other case, and nothing is sent afterwards.",
  "every interleaving of incoming messages, the close and the connecting thread, every failure of the socket", "all interleavings and failure points", f"{PF}:Connection.on_channel_close", f"{PF}:Connection._shutdown_write", f"{PF}:Connection._connect")
p("C145", "Slots of terminals and of other services are counted apart, and given to every request that starts a thread",
  "Whatever messages come and whatever else happens, as many slots of each limiter are taken as terminals, or forwarded connections, file and command services, run, and never more than its limit; a message that asks for one of these starts exactly one if fewer than the limit of its kind run and a thread can be started, however many run of the other kind, and none otherwise; every other message, and a request with an unknown name, a malformed route or an unusable channel, starts nothing.",
  "every history of messages, events and ends of threads, both limits", "all histories", "dataplicity/m2mmanager.py:M2MManager.on_instruction", "dataplicity/limiter.py:limiter_context", f"{PF}:PortForwardManager.open_service", f"{PF}:PortForwardManager.redirect_port")
p("C146", "A scan loses nothing that can be reached",
  "Whatever links to directories there are, every directory that can be reached along names that do not start with a dot, within the depth limit, is listed under some path that leads to it, with all its files that do not start with a dot.",
  "every graph of directories with links and circles, every order of the listings, every depth limit", "all graphs", "dataplicity/scan_directory.py:scan_directory")
p("C147", "Pythons without os.scandir list each directory once, and the same result where there are no links",
  "With the replacement for os.DirEntry and os.scandir, no two paths in the result of a scan lead to the same directory, whatever links there are; the names listed lead to directories and to what is none; without links the result is that of os.scandir.",
  "every file system with links, every order of the listings", "all file systems", "dataplicity/scan_directory.py:DirEntry", "dataplicity/scan_directory.py:scandir", "dataplicity/scan_directory.py:scan_directory")
p("C148", "The handler of a packet is the last public method that is marked for it",
  "Whatever attributes an object has, the dispatcher calls for a packet the last of its public methods, in the order of dir(), that are marked with @expose for that packet, and on_missing_handler if there is none; for WSClient, whatever other attributes it has, this is for each packet the method of the client's protocol. After disable() no packet reaches a method.",
  "every list of attributes and every packet", "all objects", "dataplicity/m2m/dispatcher.py:expose", "dataplicity/m2m/dispatcher.py:Dispatcher._init_dispatcher", "dataplicity/m2m/dispatcher.py:Dispatcher.dispatch", "dataplicity/m2m/dispatcher.py:Dispatcher.disable")
p("C149", "A packet may be given by its name as well as by its number",
  "Creating or sending a packet by the name of its type has the same result as by its number, whatever the parameters; KeyError is raised exactly for bytes and for text that names no packet type; every name used by the agent has a packet class.",
  "every name, every number and all parameters", "all texts and parameters", "dataplicity/m2m/packets.py:M2MPacket.process_packet_type", "dataplicity/m2m/wsclient.py:WSClient.send")
p("C150", "A terminal executes the program and the arguments that its command names",
  "The command of a terminal is split into words as a POSIX shell does it (plain and escaped characters, single and double quotes); the first word is the program and all words are its arguments; without words it is the program that SHELL names. No process is started exactly if a quote or an escape is not finished. Every list of arguments can be written as a command.",
  "every command, every value of SHELL", "all texts", RP+":RemoteProcess.run", PX+":Interceptor.spawn")
p("C151", "What the agent writes as JSON is JSON and stands for what was written; what it reads is read as JSON says",
  "json.dumps, as the agent calls it for requests, control messages and scans, gives printable ASCII that is JSON (RFC 8259) and stands for the value written, so that no two values are written alike; json.loads gives a value for exactly the texts of JSON (and Python's NaN, Infinity, -Infinity), namely the one they stand for, and of bytes in UTF-8 it takes none for another encoding.",
  "every JSON value, every text, every spelling", "all values and texts", JR+":JSONRPC._send", JR+":JSONRPC.call", JR+":Batch.send", RP+":RemoteProcess.on_control", WS+":WSClient.channel_control_write", DS+":DirectoryScanner.write_scan")
p("C152", "A remote call gives what the server answered, whatever the spelling of the answer",
  "Against a server that reads JSON and follows JSON-RPC 2.0, a call returns the result of the procedure or raises its error, and so does each call of a batch, as bytes on the wire: the request is JSON in UTF-8 that stands for the call, and an answer in any spelling (spaces, escapes, order of keys and of responses) has the same effect; a body counts as JSON exactly if it is JSON in UTF-8.",
  "every server of this kind, every procedure, call and batch, every spelling", "all servers, values and spellings", JR+":JSONRPC._send", JR+":JSONRPC.call", JR+":Batch.send")
p("C153", "Whoever reads the file of a scan as JSON finds exactly what the scan found",
  "The file written for a scan is JSON in UTF-8 in the documented format: it has the path of the remote directory, and for each path it lists exactly the subdirectories, files and sizes that the scan found there, and no path that was not scanned.",
  "every directory tree, every result of a scan, every order of the keys", "all trees and names", SD+":scan_directory", DS+":DirectoryScanner.write_scan")
p("C154", "The control messages of file and command services are JSON that says what happened",
  "A server that asks for a file which can not be opened gets a control message that is JSON and has service remote-file, type error, status ioerror and the message, and then the close request; a server that asks for a command gets all of its output and last, before the close request, a control message that is JSON and has service command, type complete and the return code of the process; a refused command is answered with a control message that is JSON, with type error, status error and the reason as text.",
  "every history, request, command, output and return code, every reason, every interleaving with other events", "all histories, texts and interleavings", f"{FS}:FileService.send_error", f"{CS}:CommandService.send_error", f"{CS}:CommandService._run_service", f"{WS}:WSClient.channel_control_write")
p("C155", "A result of a scan that is not complete is never read as one",
  "What is in the file of a scan while it is being written, or after the agent was killed in writing it, is not JSON unless it is the complete listing of one scan: whoever reads the file as JSON, on the device at any time or over the connection once told of a success (where no scan is stored at the very time at which the agent copies the file for the server, see C185), gets an error or, for each path, exactly what the scan of one thread found there - never a part of a listing.",
  "every sequence of requests, scans, partial writes and failures, every time of reading, every listing", "all interleavings and all points at which the file can be cut", DS+":DirectoryScanner.write_scan", DS+":DirectoryScanner._perform_scan", RD+":RemoteDirectory.open_file")
p("C156", "Signals of a terminal reach its own process only",
  "Process numbers are given again by the operating system once a process has exited and was waited for. Whatever processes are born, exit and are waited for, the hang-up signal of a close and the kill signal of the thread that waits after it reach the process that the terminal has started, never another one that was given its number; however often the terminal is closed, there is at most one hang-up signal and at most one kill signal, which is sent after the hang-up signal and at least 15 seconds after the thread that waits was started. A process that does not exit gets the kill signal when the thread first looks after these 15 seconds, however often it has looked before.",
  "every interleaving of closes, waiting threads and births, exits and collections of processes", "all schedules and all reuses of process numbers", RP+":RemoteProcess.close", RP+":PidWaitThread.run", PX+":Interceptor.spawn")
p("C157", "Whoever attached itself to a channel before its end is told of the end",
  "A terminal or a forwarded connection that the server has asked for on a channel is told, once, when the server closes the channel or the connection is lost, so that its process or socket is closed.",
  "every history before, between and after, every channel", "all histories", WS+":Channel.set_callbacks", WS+":Channel.on_close", RP+":RemoteProcess.__init__", PF+":Connection.__init__")
p("C158", "What the client takes for acknowledged is what a server has that reads the bytes of its requests",
  "A server that reads the bodies of the requests as JSON in UTF-8, follows JSON-RPC 2.0 and spells its responses in any way, has all six parts of the information about the device once the client takes it for sent, has the identity that the manager takes for announced, and has the tags that the client takes for acknowledged if no reply to tags was lost; whatever else is lost on the way or answered with something that is not JSON. Every request is JSON in UTF-8 and its first call authenticates the device with serial and token.",
  "every history of polls, syncs and identities, every loss, every spelling of the responses", "all histories, losses and spellings", CL+":Client._sync", CL+":Client.tag_poll", CL+":Client.set_m2m_identity", JR+":JSONRPC._send", JR+":Batch.send")
p("C159", "A server can mirror the remote directory from what it reads in a scan",
  "Whatever file a server finds when it reads the file of a scan as JSON, it can ask for the path of the directory followed by the name, and gets a regular file of the listed size (or -1 where none was got) and its bytes; and where there are no links it misses nothing: every file less than ten levels deep without hidden names in its path is in the JSON with its size, and is fetched under its path.",
  "every file system, every order of listings and keys, every file", "all file systems and names", SD+":scan_directory", DS+":DirectoryScanner.write_scan", RD+":RemoteDirectory.add_upload", RD+":RemoteDirectory.read_upload")
AP = "dataplicity/app.py"
p("C160", "Which command lines the agent accepts, and what they mean",
  "A command line is accepted exactly if it consists of options in their spellings (letters, which can be put together; long names, which can be shortened while unique; values in the same string, after = or in the next string), without --help and --version, and maybe the subcommand as the last string; the agent then gets for each option the value given last and the defaults for the others. Every other line ends the process with status 0 or 2.",
  "every list of strings as command line", "all lists of strings", AP+":App._make_arg_parser", AP+":App.run", "dataplicity/subcommand.py:SubCommand")
p("C161", "The serial and the token given on the command line are used",
  "The serial given with --serial and the token given with --auth are those with which the agent runs, whatever they are.",
  "every serial and token, in every spelling of the options", "all strings", AP+":App._make_arg_parser", AP+":App.make_client", CL+":Client._init")
p("C162", "The command suggested after a failure shows the traceback",
  "When a subcommand fails, the command that is printed for a full traceback is the same program with the same arguments and --debug, and if the subcommand fails again the traceback is shown.",
  "every command line whose subcommand fails", "all lists of strings", AP+":App.run", AP+":main")
p("C163", "Threads never wait for each other in a circle",
  "However many channels, connections, services, terminals and scans there are and however their threads are scheduled, no thread waits for a lock that, directly or through other waiting threads, it holds itself; whoever waits for a lock waits in the end for a thread that waits for none; locks are given back by whoever is done; and never two threads scan, send to the server or write to the log at the same time.",
  "every number of threads of each kind, every run of each (with exceptions anywhere), every schedule", "all interleavings of any number of threads", WS+":Channel.write", WS+":WSClient.send_bytes", PF+":Connection", PF+":Service.connect", LI+":limiter_context", DS+":DirectoryScanner._perform_scan", CL+":Client.sync")
p("C164", "Slow input and output of one thread holds up no other",
  "While a thread waits for a file, a command, a terminal, a local server, the API server or a scan, the other threads, above all the one that receives from the server, go on.",
  "every number of threads of each kind, every run of each (with exceptions anywhere), every schedule", "all interleavings of any number of threads", PF+":Connection.on_channel_data", PF+":Connection._flush_buffer", CL+":Client.sync", DS+":DirectoryScanner._perform_scan", "dataplicity/m2mmanager.py:M2MManager.on_instruction")
p("C165", "What is written to the file of a channel is sent on the channel",
  "The data written to the object that get_file gives for a channel reach the server on this channel, in order, unchanged and once, whatever happens in between; nothing is sent once the channel is closed, and it does not matter what the standard output of the agent is.",
  "every history of events, calls by other threads and writes to files of any channels", "all histories and all data", WS+":ChannelFile.write", WS+":Channel.get_file")
p("C166", "Downloads make no symbolic links",
  "Whatever the server names as temporary file and as path, every symbolic link that exists after the end of a download was at the same place before it.",
  "every file system with links, every request, with and without failures of the operating system", "all file systems and requests", RD+":RemoteDirectory.copy_download", RD+":RemoteDirectory.on_write_remote_file")
p("C167", "Write requests without a device path write to the download folder only",
  "A write request without a device path, whose id is a plain name, changes no file outside of the remote directory except the one of this name in the download folder: the data are stored there and nowhere else until the download ends.",
  "every file system with links, every request, with and without failures of the operating system", "all file systems and requests", RD+":RemoteDirectory.add_download", RD+":RemoteDirectory.on_write_remote_file")
p("C168", "Every message that asks for a service is answered",
  "A message that asks for an echo service, a terminal, a forwarded or a redirected connection on a channel starts the service on that channel, or sends the reason on that channel and asks the server to close it.",
  "every history of the agent, every message, every number of services that run already, with and without failures to start a thread", "all histories and messages", "dataplicity/m2mmanager.py:M2MManager.on_instruction", "dataplicity/m2mmanager.py:M2MManager.open_terminal", PF+":PortForwardManager.open_service")
p("C169", "What a scan lists for a name determines the name",
  "For every name of a file on the disk, UTF-8 or not, the string that is written to the list of a scan reads as the Python string that stands for the name, passing it to the operating system gives the file again, and different names are listed differently.",
  "every byte string", "all names, among them those with bytes that are no UTF-8", "dataplicity/scan_directory.py:scan_directory", "dataplicity/directory_scanner.py:DirectoryScanner.write_scan")
p("C170", "Every file on the list can be asked for",
  "For every file that a scan lists there is a path that the server can put into a request to open, read or write this file.",
  "every name of a file", "all names", RD+":RemoteDirectory.on_open_remote_file", RD+":RemoteDirectory.copy_download")
p("C171", "The file that is sent is the one in the instruction",
  "The file that is opened and sent for an instruction to read a file is the one whose path is in the instruction, taken from the root directory on.",
  "every path, given as a byte string", "all paths", "dataplicity/m2mmanager.py:M2MManager.on_instruction", FS+":FileService._run_service")
p("C172", "The command that is run is the one in the instruction",
  "The command that the shell gets for an instruction to run a command is, byte for byte, the one in the instruction.",
  "every command, given as a byte string", "all commands", "dataplicity/m2mmanager.py:M2MManager.on_instruction", CS+":CommandService._run_service")
p("C173", "No copies of files stay behind",
  "After an open request has failed, after an upload was closed, and after the connection ended, no copy of the file stays in the temporary directory.",
  "every history of events and failures of the system", "all histories", RD+":RemoteDirectory.add_upload", RD+":RemoteDirectory.close_upload", RD+":RemoteDirectory.on_open_remote_file", RD+":RemoteDirectory.on_write_remote_file", WS+":WSClient.on_disconnected")
p("C174", "A channel carries one service at a time",
  "Two file or command services that the server asked for never use the same channel at the same time.",
  "every history of instructions, of the service threads and of other events", "all interleavings of threads", "dataplicity/m2mmanager.py:M2MManager.open_file_service", "dataplicity/m2mmanager.py:M2MManager.open_command_service", WS+":WSClient.get_channel")
p("C175", "open_channels lists open channels",
  "The channels in WSClient.open_channels are those that a message or a service named and that neither the server closed nor the end of a connection; after the end of a connection the list is empty and no data is kept.",
  "every history of the client", "all histories", WS+":WSClient.open_channels", WS+":WSClient.get_channel", WS+":WSClient.on_notify_close", WS+":WSClient.hard_close_channels")
p("C176", "Storing a download overwrites nothing, also while other programs work",
  "When the agent stores a download it takes away or replaces nothing but the temporary file, whatever other programs do to the files at the same time. It succeeds only if it has put the contents of the temporary file somewhere.",
  "every file system, every behaviour of other programs between the system calls of the agent, every failure of the operating system", "all interleavings with other programs", RD+":RemoteDirectory.copy_download")
p("C177", "A snapshot is the file as it was at one moment",
  "The snapshot of a file that other programs change while it is copied is what the file was at one moment during the copy, and the copy ends.",
  "every sequence of changes of the file, every size of the pieces", "all interleavings with other programs", RD+":RemoteDirectory.add_upload")
p("C178", "The disk margin is kept for files that change",
  "A snapshot leaves the margin free, also of a file that is changed between the check and the end of the copy.",
  "every sequence of changes of the file, every disk usage", "all interleavings with other programs", RD+":RemoteDirectory.add_upload")
p("C179", "Scans end and list only what was there, also while the directories change",
  "While other programs change the directories a scan still ends, and everything it lists was given by the operating system during the scan under the path at which it is listed: visible, and within the depth limit.",
  "every change of the directories between the rounds of the scan, every limit", "all interleavings with other programs", f"{SD}:scan_directory")
p("C180", "Scans list what stays",
  "Every file and directory that is on the device during the whole scan is listed once, whatever else changes meanwhile.",
  "every change of the directories between the rounds of the scan", "all interleavings with other programs", f"{SD}:scan_directory")
p("C181", "A file that changes is sent as it was at one moment",
  "What the server receives of a file that other programs change while the file service sends it is what the file was at one moment.",
  "every change of the file between the reads, every failure, every close point", "all interleavings with other programs", f"{FS}:FileService._run_service")
p("C182", "The file service ends also for files that grow",
  "Every run of the file service ends and gives back its slot, also for files that grow and for devices without an end.",
  "every change of the file between the reads, every failure, every close point", "a never-ending loop cannot be observed by a test", f"{FS}:FileService._run_service")
p("C183", "The complete message has the exit status of the command",
  "The returncode of the complete message of a command is the exit status of its shell, and a command that ends by itself is not killed. The service does not end as long as a process can write to the output, unless the channel is closed or something fails.",
  "every interleaving of the processes of the command with the thread of the service", "all interleavings with other processes", f"{CS}:CommandService._run_service")
p("C184", "No process of a command runs on after its service has ended",
  "When the command service has ended, because the output ended, the channel was closed or something failed, no process that the command has started runs.",
  "every interleaving of the processes of the command with the thread of the service", "all interleavings with other processes", f"{CS}:CommandService._run_service")
p("C185", "The result of a scan that the server gets is that of one scan",
  "If what the server gets when it opens the result of a scan can be read as JSON, it lists exactly what one scan found, also while further scans are stored.",
  "every interleaving of the threads of the scanner with the reads of the copy, every size of the pieces", "all interleavings of the scanner with the receive thread", f"{RD}:RemoteDirectory.add_upload", f"{DS}:DirectoryScanner.write_scan")
p("C186", "A snapshot leaves the margin to the agent itself",
  "If disk usage and the size of the file can be determined, then after a snapshot at least 50,000,000 bytes, but for less than one block, are still available to programs that are not run by root, as the agent.",
  "every figure of the file system and every size of file", "all figures of file systems", f"{RD}:RemoteDirectory.add_upload", "dataplicity/disk_tools.py:disk_usage")
p("C187", "Which command lines run a subcommand",
  "A subcommand is run exactly if the command line is accepted and names it, and the log level (critical with --quiet) is known and a named log file can be used; the process then ends with status 0 if the subcommand succeeds, and otherwise with a traceback if --debug was given and with status -1 if not. All other command lines end in one way, whatever the subcommands would do.",
  "every command line, every log file and every outcome of the subcommands", "all command lines", "dataplicity/app.py:App.run", "dataplicity/app.py:App._init_logging", "dataplicity/app.py:main")
p("C188", "Instructions to scan",
  "An instruction to scan the remote directory starts a scan if none is under way; and the server is told of at most as many results as it has sent scan requests, whatever instructions it gave.",
  "every state of the agent, every interleaving of messages and threads", "all interleavings", f"{DS}:DirectoryScanner.perform_scan", "dataplicity/m2mmanager.py:M2MManager.on_instruction")
p("C189", "The server has the information that the device gives when it is sent",
  "Once the client takes the information about the device for sent, the server has what the device said at the sync that the server accepted, in particular its network addresses.",
  "every history of syncs, of the device and of lost messages", "all histories", f"{CL}:Client._sync_meta", "dataplicity/device_meta.py:get_meta", "dataplicity/device_meta.py:get_ip_address_list")
p("C190", "The server has disk figures of the last hour",
  "After every poll at which the server can be reached, the server has disk figures that are less than an hour old.",
  "every history of polls, of the clock and of the network", "all histories", f"{CL}:Client.disk_poll", f"{CL}:Client.poll")
p("C191", "Changes of the clock restart the agent",
  "The process is killed at the end of the check during which the clock of the device is set by more than 180 seconds, forward or back, and at no other time.",
  "every sequence of changes of the clock and of checks", "all sequences", "dataplicity/clockcheck.py:ClockCheckThread.run", "dataplicity/clockcheck.py:ClockCheckThread.on_fail")
p("C192", "A terminal process has 15 seconds to exit after the hang-up",
  "A terminal process that does not exit after the hang-up signal gets the kill signal at the first look of the waiting thread after 15 seconds have passed, and not sooner, whatever the clock of the device shows.",
  "every sequence of looks, exits and changes of the clock", "all sequences", "dataplicity/m2m/remoteprocess.py:PidWaitThread.run")
p("C193", "Write requests can be sent again",
  "A write request that the server sends again, because it got no answer to the first one, is answered as the first one was and changes no file any more.",
  "every state of the file system, every chunk, path and settings", "the failure needs a lost answer after the file was stored", "dataplicity/remote_directory.py:RemoteDirectory.on_write_remote_file", "dataplicity/remote_directory.py:RemoteDirectory.add_download", "dataplicity/remote_directory.py:RemoteDirectory.copy_download")
p("C194", "Requests to open, read and close a file can be sent again",
  "A request to open, read or close a file of the remote directory that the server sends again, because it got no answer to the first one, is answered as the first one was, and what can be read of the file afterwards stays the same.",
  "every state of the file system, every path, upload id, offset and size, and every behaviour of the disk", "the failures need a disk that is nearly full or a file that changes between the two requests", f"{RD}:RemoteDirectory.on_open_remote_file", f"{RD}:RemoteDirectory.on_read_remote_file", f"{RD}:RemoteDirectory.on_close_remote_file", f"{RD}:RemoteDirectory.add_upload")
with open(os.path.join(os.path.dirname(__file__), "..", "properties.jsonl"), "w") as f:
    for x in P:
        f.write(json.dumps(x, ensure_ascii=False) + "\n")
print(len(P))
