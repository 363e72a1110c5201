{"id": "C01", "title": "Bencode round trip", "statement": "Decoding what encode() produced gives back the value that was encoded, with text turned into its UTF-8 bytes, tuples into lists, and dicts equal as mappings.", "quantifier": "every encodable value: byte strings and text of any length, integers of any size and sign, lists, tuples and dicts nested to any depth", "why_tests_cant": "the value space is infinite and recursive; tests sample a few literals", "anchors": ["dataplicity/m2m/bencode.py:encode", "dataplicity/m2m/bencode.py:decode"]}
{"id": "C02", "title": "Bencode is canonical and unambiguous", "statement": "Two dicts that are equal as mappings encode to the same bytes whatever their insertion order, and two values with the same encoding are equal after decoding.", "quantifier": "every pair of encodable values and every insertion order of every dict inside them", "why_tests_cant": "ranges over all permutations of all dicts and over all pairs of values", "anchors": ["dataplicity/m2m/bencode.py:encode"]}
{"id": "C03", "title": "Bencode is self-delimiting", "statement": "When an encoded value is followed by any other bytes, the decoder returns that value and stops exactly at its end, so values written back to back are read back one by one; no encoding is a proper prefix of another.", "quantifier": "every encodable value and every byte string following it", "why_tests_cant": "the suffix is arbitrary and unbounded", "anchors": ["dataplicity/m2m/bencode.py:_decode"]}
{"id": "C04", "title": "Encode succeeds exactly on supported values", "statement": "encode() returns bytes if and only if the value is built from byte strings, text, integers, lists, tuples and dicts with byte-string keys; if anything else (None, a float, a bool, a dict with a non-bytes key) occurs anywhere inside, it raises and no bytes are produced.", "quantifier": "every value, with an unsupported part at any depth or none", "why_tests_cant": "the unsupported part may be at any depth of an unbounded structure", "anchors": ["dataplicity/m2m/bencode.py:encode"]}
{"id": "C05", "title": "Decode terminates on every input", "statement": "decode() returns a value or raises for every byte string; in particular a malformed or truncated message can not make it loop for ever.", "quantifier": "every byte string", "why_tests_cant": "non-termination cannot be observed by a finite test; all inputs are quantified", "anchors": ["dataplicity/m2m/bencode.py:_decode"]}
{"id": "C06", "title": "Truncated messages are not accepted as complete", "statement": "No proper prefix of an encoded list, dict or integer (in particular of an encoded packet) decodes to a value; it is never mistaken for a complete message.", "quantifier": "every encodable list, dict or integer and every point at which its encoding can be cut", "why_tests_cant": "every cut point of every message", "anchors": ["dataplicity/m2m/bencode.py:_decode", "dataplicity/m2m/packetbase.py:PacketBaseType.from_bytes"]}
{"id": "C07", "title": "Decoded values are clean", "statement": "Whatever bytes are decoded, a value that comes back contains only byte strings, integers, lists and dicts (never text, floats or bools); a list never contains None; a value without None inside and with byte-string keys can be encoded again and decodes to itself.", "quantifier": "every byte string for which decode() returns", "why_tests_cant": "ranges over all byte strings, well formed or not", "anchors": ["dataplicity/m2m/bencode.py:_decode", "dataplicity/m2m/bencode.py:encode"]}
{"id": "C08", "title": "Packet round trip", "statement": "A packet of any registered type created from correctly typed values and encoded to bytes is read back by from_bytes() as a packet of the same type with the same attribute values.", "quantifier": "every registered packet type and every tuple of correctly typed, encodable attribute values", "why_tests_cant": "all packet types times all attribute values", "anchors": ["dataplicity/m2m/packetbase.py:PacketBaseType.from_bytes", "dataplicity/m2m/packetbase.py:PacketBaseType.encode_binary", "dataplicity/m2m/packets.py:M2MPacket"]}
{"id": "C09", "title": "Only well-typed packets come out of from_bytes", "statement": "If from_bytes() returns a packet, the bytes decode to a list whose first element is the number of that registered packet type, every declared attribute is present, has its declared type, and equals the list element at its position; surplus elements are ignored.", "quantifier": "every byte string", "why_tests_cant": "all byte strings, including adversarial ones", "anchors": ["dataplicity/m2m/packetbase.py:PacketBaseType.from_bytes", "dataplicity/m2m/packetbase.py:PacketBaseType.from_body", "dataplicity/m2m/packetbase.py:PacketBaseType.init_params"]}
{"id": "C10", "title": "Malformed packets are reported as packet errors", "statement": "For bytes that are not a well-formed packet, from_bytes() raises an error of the PacketError family and nothing else.", "quantifier": "every byte string that is not an encoded packet", "why_tests_cant": "the error branch depends on arbitrary malformed bytes", "anchors": ["dataplicity/m2m/packetbase.py:PacketBaseType.from_bytes"]}
{"id": "C11", "title": "Packet construction is checked and position/keyword agnostic", "statement": "Creating a packet by position or by keyword gives the same packet; text arguments become UTF-8 bytes; a missing or wrongly typed attribute raises PacketFormatError; nothing else does.", "quantifier": "every registered packet type and every argument list", "why_tests_cant": "all argument lists for all types", "anchors": ["dataplicity/m2m/packetbase.py:PacketBaseType.init_params", "dataplicity/m2m/packetbase.py:PacketBaseType.create"]}
{"id": "C12", "title": "Packet numbers are unambiguous", "statement": "Each packet number belongs to at most one packet type and one packet class, and each class is registered under its own number.", "quantifier": "every packet type and class in the protocol table", "why_tests_cant": "the whole table must be consistent, and lookups are made with any integer", "anchors": ["dataplicity/m2m/packets.py:PacketType", "dataplicity/m2m/packetbase.py:PacketMeta"]}
{"id": "C13", "title": "Passwords never reach the log", "statement": "The printable form of a packet, which is what is written to the logs and put in error messages, does not depend on the value of an attribute called password.", "quantifier": "every user name and every pair of passwords, complete or incomplete packets", "why_tests_cant": "non-interference relates two runs for all secrets", "anchors": ["dataplicity/m2m/packetbase.py:PacketBaseType.__repr__", "dataplicity/m2m/packets.py:RequestLoginPacket"]}
{"id": "C14", "title": "Incoming messages reach exactly the right handler", "statement": "A binary message leads to a handler call if and only if it decodes to a list starting with the number of a handled packet type followed by that type's attributes with the right types; the handler then receives those attribute values in order, and no other handler runs.", "quantifier": "every byte string", "why_tests_cant": "all byte strings times all handlers", "anchors": ["dataplicity/m2m/dispatcher.py:Dispatcher.dispatch", "dataplicity/m2m/dispatcher.py:Dispatcher.dispatch_packet", "dataplicity/m2m/wsclient.py:WSClient.on_packet"]}
{"id": "C15", "title": "No message stops the receive loop", "statement": "Whatever websocket events and message bytes arrive, an error while handling one of them is logged and the next event is still handled.", "quantifier": "every finite sequence of websocket events with arbitrary contents", "why_tests_cant": "all sequences of arbitrary messages", "anchors": ["dataplicity/m2m/wsclient.py:WSClient.run", "dataplicity/m2m/wsclient.py:WSClient.on_event"]}
{"id": "C16", "title": "Pings are answered", "statement": "Each ping message is answered by exactly one pong carrying the first 1024 bytes of its data (so exactly its data when it is not longer), whatever state the client is in.", "quantifier": "every ping payload and client state", "why_tests_cant": "all payload sizes around and beyond the limit", "anchors": ["dataplicity/m2m/wsclient.py:WSClient.handle_ping"]}
{"id": "C17", "title": "Unknown messages have no effect", "statement": "A message whose type number is unknown, or known but not handled, changes nothing and sends nothing.", "quantifier": "every message with such a type, in every client state", "why_tests_cant": "all other type numbers and all bodies", "anchors": ["dataplicity/m2m/wsclient.py:WSClient.on_packet", "dataplicity/m2m/dispatcher.py:Dispatcher.on_missing_handler"]}
{"id": "C18", "title": "A stale identity is never reused after a disconnect", "statement": "When the websocket becomes ready the client sends exactly one hand-shake: a join request if it has no identity, otherwise an identify request with its current identity; after a disconnect and until the server assigns a new one, it only ever asks to join.", "quantifier": "every history of websocket events", "why_tests_cant": "all event histories", "anchors": ["dataplicity/m2m/wsclient.py:WSClient.on_ready", "dataplicity/m2m/wsclient.py:WSClient.on_disconnected", "dataplicity/m2m/wsclient.py:WSClient.handle_set_identity"]}
{"id": "C19", "title": "The API server is told the current identity until it acknowledges it", "statement": "At every poll of the websocket the device's current identity is sent to the API server unless the server's last acknowledged identity is that one; once it was acknowledged it is not sent again while it stays the same.", "quantifier": "every history of identity changes, polls and RPC successes or failures", "why_tests_cant": "all histories and failure patterns", "anchors": ["dataplicity/m2mmanager.py:M2MManager.set_identity", "dataplicity/m2m/wsclient.py:WSClient.sync_identity", "dataplicity/client.py:Client.set_m2m_identity"]}
{"id": "C20", "title": "A closed client announces nothing", "statement": "After the m2m client was closed, no identity is accepted and none is ever announced to the API server, whatever arrives later.", "quantifier": "every history after close()", "why_tests_cant": "all continuations", "anchors": ["dataplicity/m2m/wsclient.py:WSClient.close", "dataplicity/m2m/wsclient.py:WSClient.handle_set_identity"]}
{"id": "C21", "title": "Command callbacks fire once", "statement": "A callback registered for a command is called exactly once: with the result when the response arrives, or with None when the connection is lost first.", "quantifier": "every history of registrations, responses and disconnects", "why_tests_cant": "all interleavings of responses and disconnects", "anchors": ["dataplicity/m2m/wsclient.py:WSClient.callback", "dataplicity/m2m/wsclient.py:WSClient.clear_callbacks", "dataplicity/m2m/wsclient.py:WSClient.add_callback"]}
{"id": "C22", "title": "A channel without a callback is a lossless byte stream", "statement": "The bytes returned by successive read() calls, concatenated and followed by what is still buffered, are exactly the bytes that were routed to the channel, in order: nothing lost, duplicated or reordered, however messages and reads are split or interleaved.", "quantifier": "every interleaving of incoming messages and reads of any size", "why_tests_cant": "all chunkings and read sizes", "anchors": ["dataplicity/m2m/wsclient.py:Channel.on_data", "dataplicity/m2m/wsclient.py:Channel.read"]}
{"id": "C23", "title": "Channel reads are bounded and complete", "statement": "read(n) returns at most n bytes, returns min(n, size) bytes, size is the number of unread bytes, and the channel is truthy exactly while a message is buffered.", "quantifier": "every reachable channel state and every n", "why_tests_cant": "all states and counts", "anchors": ["dataplicity/m2m/wsclient.py:Channel.read", "dataplicity/m2m/wsclient.py:Channel.size", "dataplicity/m2m/wsclient.py:Channel.__nonzero__"]}
{"id": "C24", "title": "A closed channel is silent", "statement": "The close callback of a channel is called at most once, and after the channel was closed no data or control callback is called, nothing more is written to the server for it, and no close is requested for it.", "quantifier": "every history of channel operations", "why_tests_cant": "all histories after the close", "anchors": ["dataplicity/m2m/wsclient.py:Channel.on_close", "dataplicity/m2m/wsclient.py:Channel.on_data", "dataplicity/m2m/wsclient.py:Channel.write", "dataplicity/m2m/wsclient.py:Channel.close"]}
{"id": "C25", "title": "Data that arrived before a service attached reaches the service", "statement": "Data routed to a channel before a service registers its callback is handed to the service, before any later data.", "quantifier": "every history in which data precedes the registration", "why_tests_cant": "depends on the order of network packets", "anchors": ["dataplicity/m2m/wsclient.py:Channel.set_callbacks", "dataplicity/m2m/wsclient.py:Channel.on_data"]}
{"id": "C26", "title": "A newly opened channel delivers data", "statement": "After the server announced a channel as opened, data routed to it is delivered until the channel is closed, also when its number was in use before a disconnect.", "quantifier": "every history of opens, closes and disconnects followed by an open", "why_tests_cant": "all histories before the open", "anchors": ["dataplicity/m2m/wsclient.py:WSClient.on_notify_open", "dataplicity/m2m/wsclient.py:WSClient.hard_close_channels", "dataplicity/m2m/wsclient.py:WSClient.get_channel"]}
{"id": "C27", "title": "Channels are independent", "statement": "A message for one channel changes no other channel.", "quantifier": "every state, message and pair of distinct channel numbers", "why_tests_cant": "all pairs of channels and states", "anchors": ["dataplicity/m2m/wsclient.py:WSClient.handle_route", "dataplicity/m2m/wsclient.py:WSClient.get_channel"]}
{"id": "C28", "title": "A closed channel number can be used afresh", "statement": "After the server closed a channel, a new open with the same number yields a fresh channel with no buffered data, no callbacks and not closed.", "quantifier": "every history before the close", "why_tests_cant": "all earlier histories", "anchors": ["dataplicity/m2m/wsclient.py:WSClient.on_notify_close"]}
{"id": "C29", "title": "The service limit is never exceeded", "statement": "The number of slots in use is at all times between 0 and the limit; a slot is refused exactly when the limit is reached, and a refusal changes nothing.", "quantifier": "every interleaving of acquisitions and releases", "why_tests_cant": "all schedules", "anchors": ["dataplicity/limiter.py:Limiter.increment", "dataplicity/limiter.py:Limiter.decrement"]}
{"id": "C30", "title": "Slots are released exactly once", "statement": "Slots in use always equals the number of services that were launched and have not ended; a launch that fails gives its slot back; when all services have ended the count is 0; releasing never fails.", "quantifier": "every schedule of concurrent launches, launch failures and service ends", "why_tests_cant": "all schedules of any number of threads", "anchors": ["dataplicity/limiter.py:limiter_context", "dataplicity/m2m/fileservice.py:FileService.__init__", "dataplicity/portforward.py:Connection._run"]}
{"id": "C31", "title": "A refused service is reported and the channel closed", "statement": "When a service can not be launched (limit reached or no thread), the remote side is told and a close of the channel is requested, and no slot stays in use.", "quantifier": "every limiter state and every launch failure", "why_tests_cant": "all states and failures", "anchors": ["dataplicity/m2m/fileservice.py:FileService.__init__", "dataplicity/m2m/commandservice.py:CommandService.__init__", "dataplicity/portforward.py:Service.connect", "dataplicity/portforward.py:PortForwardManager.redirect_port", "dataplicity/m2mmanager.py:Terminal.launch"]}
{"id": "C32", "title": "File contents arrive intact", "statement": "If the channel stays open, the bytes sent over it are exactly the contents of the file; if it closes at some moment they are a prefix of it; each message holds between 1 and 1048576 bytes.", "quantifier": "every file content and every moment at which the channel may close", "why_tests_cant": "all contents and all close points", "anchors": ["dataplicity/m2m/fileservice.py:FileService._run_service"]}
{"id": "C33", "title": "A file transfer always ends with a close", "statement": "Every run of the file service, successful or not, requests the close of the channel exactly once and as its last action on it, reports a file that can not be read with an ioerror control message, and releases its slot.", "quantifier": "every file, I/O failure and close point", "why_tests_cant": "all failure points", "anchors": ["dataplicity/m2m/fileservice.py:FileService.run_service", "dataplicity/m2m/fileservice.py:FileService._run_service"]}
{"id": "C34", "title": "Command output is forwarded intact", "statement": "The bytes sent over the channel are exactly the bytes read from the command's standard output, in order; standard error is never sent.", "quantifier": "every sequence of poll results and reads", "why_tests_cant": "all schedules of the pipes", "anchors": ["dataplicity/m2m/commandservice.py:CommandService._run_service"]}
{"id": "C35", "title": "A finished command is reported and its channel closed", "statement": "Whenever the command service ends, it has sent a complete message, requested the close of the channel, released its slot, and the child was killed if still running.", "quantifier": "every way in which the command service can end", "why_tests_cant": "all failure points", "anchors": ["dataplicity/m2m/commandservice.py:CommandService.run_service", "dataplicity/m2m/commandservice.py:CommandService._run_service"]}
{"id": "C36", "title": "The command service ends when the command ends", "statement": "Once the command has ended and its output is drained, the service leaves its loop.", "quantifier": "every sequence of poll results that an operating system reports after the pipes were closed", "why_tests_cant": "a never-ending loop cannot be observed by a test", "anchors": ["dataplicity/m2m/commandservice.py:CommandService._run_service"]}
{"id": "C37", "title": "Echo", "statement": "On a channel with the echo service each message is sent back unchanged, once, in order, on the same channel, until the channel closes.", "quantifier": "every sequence of messages", "why_tests_cant": "all message sequences", "anchors": ["dataplicity/m2m/echoservice.py:EchoService"]}
{"id": "C38", "title": "Data for a local service arrives intact whenever the connection gets established", "statement": "As long as the socket accepts data, the bytes sent to the local socket are exactly the bytes routed to the channel, in order, whether they arrived before, while or after the connection was made.", "quantifier": "every interleaving of incoming messages with the connecting thread", "why_tests_cant": "all interleavings of two threads", "anchors": ["dataplicity/portforward.py:Connection.on_channel_data", "dataplicity/portforward.py:Connection._flush_buffer", "dataplicity/portforward.py:Connection._connect"]}
{"id": "C39", "title": "The local service never sees a stream with a hole", "statement": "If sending to the local socket fails part way, nothing that was routed later is sent after the hole: the local service always sees a prefix of the routed bytes.", "quantifier": "every failure point", "why_tests_cant": "all failure points", "anchors": ["dataplicity/portforward.py:Connection._flush_buffer"]}
{"id": "C40", "title": "Data from a local service is forwarded intact", "statement": "The bytes written to the channel are exactly the bytes received from the local socket, in order.", "quantifier": "every sequence of poll results and receives", "why_tests_cant": "all schedules", "anchors": ["dataplicity/portforward.py:Connection._run"]}
{"id": "C41", "title": "Forwarded connections are isolated", "statement": "An error or hang-up on one forwarded connection ends that connection only; other and later connections keep forwarding.", "quantifier": "every set of connections and every schedule", "why_tests_cant": "all schedules of many connections", "anchors": ["dataplicity/portforward.py:Connection._run", "dataplicity/portforward.py:PortForwardManager.close_event"]}
{"id": "C42", "title": "A local hang-up closes the channel", "statement": "When the local service closes its connection, the forwarding thread leaves its loop and requests the close of the channel.", "quantifier": "every sequence of poll results after end of file", "why_tests_cant": "a never-ending loop cannot be observed by a test", "anchors": ["dataplicity/portforward.py:Connection._run"]}
{"id": "C43", "title": "A forwarding thread always closes its channel and releases its slot", "statement": "Whenever a forwarding thread ends, whether it connected or not, it has requested the close of its channel and released its slot.", "quantifier": "every way of ending and every clock reading", "why_tests_cant": "all failure points and clock values", "anchors": ["dataplicity/portforward.py:Connection.run", "dataplicity/portforward.py:Connection._run"]}
{"id": "C44", "title": "Service lookup is consistent", "statement": "Looking up a service by port gives a service for that port, looking it up by name gives the service last added under that name.", "quantifier": "every sequence of service additions", "why_tests_cant": "all sequences", "anchors": ["dataplicity/portforward.py:PortForwardManager.add_service", "dataplicity/portforward.py:PortForwardManager.get_service_on_port", "dataplicity/portforward.py:PortForwardManager.get_service"]}
{"id": "C45", "title": "Opening a service connects to the requested address only", "statement": "Opening a named service starts at most one connection, to the host and port registered for that name; redirecting a port connects to that port on 127.0.0.1; an unknown service connects to nothing; giving neither name nor port is an error.", "quantifier": "every service table and request", "why_tests_cant": "all tables and requests", "anchors": ["dataplicity/portforward.py:PortForwardManager.open", "dataplicity/portforward.py:PortForwardManager.redirect_port", "dataplicity/portforward.py:Service.connect"]}
{"id": "C46", "title": "Keyboard input reaches the terminal process completely", "statement": "All bytes of every message are written to the terminal, in order, however the operating system splits the writes.", "quantifier": "every message and every sequence of partial writes", "why_tests_cant": "all partial write patterns", "anchors": ["dataplicity/m2m/proxy.py:Interceptor.write_master", "dataplicity/m2m/remoteprocess.py:RemoteProcess.on_data"]}
{"id": "C47", "title": "Closing a terminal signals its process once and escalates once", "statement": "A terminal process gets at most one hang-up signal, gets a kill signal at most once, and only if it is still running at least 15 seconds after the hang-up.", "quantifier": "every history of closes and every timing of the process exit", "why_tests_cant": "all timings", "anchors": ["dataplicity/m2m/remoteprocess.py:RemoteProcess.close", "dataplicity/m2m/remoteprocess.py:PidWaitThread.run"]}
{"id": "C48", "title": "A closed terminal leaves no process behind", "statement": "If the channel of a terminal is closed, its process is signalled, even when the close arrives while the process is being started.", "quantifier": "every interleaving of the launching thread and the close", "why_tests_cant": "race between two threads", "anchors": ["dataplicity/m2m/remoteprocess.py:RemoteProcess.close", "dataplicity/m2m/proxy.py:Interceptor.spawn"]}
{"id": "C49", "title": "Window sizes are applied as requested", "statement": "After a resize request to C columns and L lines, and for the initial size, the terminal device is given C columns and L rows.", "quantifier": "every size and every history of resizes before and after the start", "why_tests_cant": "all sizes and histories", "anchors": ["dataplicity/m2m/proxy.py:Interceptor._set_pty_size", "dataplicity/m2m/proxy.py:Interceptor.resize_terminal", "dataplicity/m2m/remoteprocess.py:RemoteProcess.on_control"]}
{"id": "C50", "title": "Terminal output is forwarded intact and its end is signalled", "statement": "The bytes sent over the channel are exactly the bytes read from the terminal, in order; when the process has ended the close of the channel is requested.", "quantifier": "every sequence of poll results", "why_tests_cant": "all schedules", "anchors": ["dataplicity/m2m/proxy.py:Interceptor._copy", "dataplicity/m2m/remoteprocess.py:RemoteProcess.master_read", "dataplicity/m2m/remoteprocess.py:RemoteProcess.run"]}
{"id": "C51", "title": "Terminals run with the configured user and group only", "statement": "A terminal configured with a user and group runs its command with exactly that user and group or not at all.", "quantifier": "every account database and every configuration", "why_tests_cant": "all account databases", "anchors": ["dataplicity/m2m/proxy.py:Interceptor.spawn"]}
{"id": "C52", "title": "Files outside the remote directory are not served", "statement": "Whatever path is requested, the file that is opened for it is lexically inside the remote directory, or is the scan result file when exactly that special name was requested; anything else is refused.", "quantifier": "every requested path and every remote directory root", "why_tests_cant": "all path strings", "anchors": ["dataplicity/remote_directory.py:RemoteDirectory.add_upload", "dataplicity/remote_directory.py:validate_path"]}
{"id": "C53", "title": "Snapshots stay in the snapshot folder", "statement": "Whatever upload id is given, opening, reading and closing an upload touch only files inside the agent's snapshot folder.", "quantifier": "every upload id", "why_tests_cant": "all id strings", "anchors": ["dataplicity/remote_directory.py:RemoteDirectory.get_snapshot_path", "dataplicity/remote_directory.py:RemoteDirectory.read_upload", "dataplicity/remote_directory.py:RemoteDirectory.close_upload"]}
{"id": "C54", "title": "Snapshots are isolated", "statement": "Reads of an upload return the contents that the file had when the upload was opened, whatever happens to the file or to other uploads in between, until that upload is closed or opened again; after closing, reads fail; closing twice is harmless.", "quantifier": "every history of opens, reads, closes and file changes", "why_tests_cant": "all histories", "anchors": ["dataplicity/remote_directory.py:RemoteDirectory.add_upload", "dataplicity/remote_directory.py:RemoteDirectory.read_upload", "dataplicity/remote_directory.py:RemoteDirectory.close_upload"]}
{"id": "C55", "title": "Piecewise reads reassemble the file", "statement": "A read at offset o of size n returns the bytes o to o+n of the snapshot (fewer at its end); reading consecutive pieces of any positive size until nothing comes back yields the whole snapshot; the size reported at opening is its length.", "quantifier": "every content, offset and size", "why_tests_cant": "all contents and piece sizes", "anchors": ["dataplicity/remote_directory.py:RemoteDirectory.read_upload", "dataplicity/remote_directory.py:RemoteDirectory.on_read_remote_file"]}
{"id": "C56", "title": "Snapshots respect the disk margin", "statement": "If disk usage can be determined, a snapshot is only made when at least 50,000,000 bytes stay free after it; otherwise the request fails and nothing is written.", "quantifier": "every disk usage and file size", "why_tests_cant": "all numeric boundaries", "anchors": ["dataplicity/remote_directory.py:RemoteDirectory.add_upload"]}
{"id": "C57", "title": "Every remote file request gets exactly one reply", "statement": "Each open, read or write request is answered by exactly one result message which echoes its id and states success or failure.", "quantifier": "every request and every file system behaviour", "why_tests_cant": "all failure branches for all inputs", "anchors": ["dataplicity/remote_directory.py:RemoteDirectory.on_open_remote_file", "dataplicity/remote_directory.py:RemoteDirectory.on_read_remote_file", "dataplicity/remote_directory.py:RemoteDirectory.on_write_remote_file"]}
{"id": "C58", "title": "Chunked downloads are assembled correctly", "statement": "If the chunks of a file are written at their offsets, in any order and without overlap, and the last one is marked final, the file stored in the remote directory has exactly the contents, and the position reported for each chunk is the end of the chunk.", "quantifier": "every content, every split into chunks and every order", "why_tests_cant": "all splits and orders", "anchors": ["dataplicity/remote_directory.py:RemoteDirectory.on_write_remote_file", "dataplicity/remote_directory.py:RemoteDirectory.add_download"]}
{"id": "C59", "title": "Downloads never overwrite existing files", "statement": "A download is stored under a name that did not exist; if the requested name is taken the first free name(N) with N from 1 to 100 is used, and if all are taken the download is refused and nothing is changed.", "quantifier": "every file system state and name", "why_tests_cant": "all file system states", "anchors": ["dataplicity/remote_directory.py:RemoteDirectory.copy_download"]}
{"id": "C60", "title": "Downloads stay in the remote directory", "statement": "Whatever destination is requested, a download is stored inside the remote directory, and chunk data is only written to the agent's download folder.", "quantifier": "every destination path, id and device path", "why_tests_cant": "all path strings", "anchors": ["dataplicity/remote_directory.py:RemoteDirectory.copy_download", "dataplicity/remote_directory.py:RemoteDirectory.on_write_remote_file"]}
{"id": "C61", "title": "A failed chunk leaves no partial download and is reported", "statement": "If a chunk can not be written the reply carries the chunk's offset and failure code 2, the temporary file is removed if the system allows it, and nothing is stored in the remote directory.", "quantifier": "every failure", "why_tests_cant": "all failure points", "anchors": ["dataplicity/remote_directory.py:RemoteDirectory.on_write_remote_file"]}
{"id": "C62", "title": "Scans omit hidden entries and respect the depth limit", "statement": "No scan result contains a file or directory whose name starts with a dot, nor a directory deeper than the limit.", "quantifier": "every directory graph and limit", "why_tests_cant": "all directory graphs", "anchors": ["dataplicity/scan_directory.py:scan_directory"]}
{"id": "C63", "title": "Scans terminate and visit each directory once", "statement": "A scan of any finite directory structure terminates, even with recursive links and without depth limit, and no directory is listed twice.", "quantifier": "every finite directory graph, with cycles", "why_tests_cant": "termination on cyclic graphs", "anchors": ["dataplicity/scan_directory.py:scan_directory"]}
{"id": "C64", "title": "Scans are complete", "statement": "On a directory tree without links and deeper parts the result lists exactly the visible directories with exactly their visible files, names and sizes.", "quantifier": "every finite tree", "why_tests_cant": "all trees of any shape", "anchors": ["dataplicity/scan_directory.py:scan_directory"]}
{"id": "C65", "title": "Every scan request gets a result message", "statement": "Each request to scan is answered with exactly one result message: empty after a successful scan was stored, an error text otherwise.", "quantifier": "every history of requests, including concurrent ones and failing scans", "why_tests_cant": "all schedules", "anchors": ["dataplicity/directory_scanner.py:DirectoryScanner.perform_scan", "dataplicity/m2m/wsclient.py:WSClient.on_scan_remote_directory"]}
{"id": "C66", "title": "Scans never run concurrently", "statement": "At most one scan reads the directory and writes the result file at any time, and success is reported only after the result file was written.", "quantifier": "every interleaving of scan threads", "why_tests_cant": "all interleavings", "anchors": ["dataplicity/directory_scanner.py:DirectoryScanner._perform_scan"]}
{"id": "C67", "title": "The scan result file is never half written", "statement": "At every point at which the agent may be killed, the scan result file holds the complete old or the complete new result.", "quantifier": "every crash point", "why_tests_cant": "all crash points", "anchors": ["dataplicity/directory_scanner.py:DirectoryScanner.write_scan"]}
{"id": "C68", "title": "An RPC call returns only its own result", "statement": "call() returns a result only if the response is JSON-RPC 2.0, carries the id of this very call and no error; the value returned is the response's result, or None if it has none.", "quantifier": "every server response", "why_tests_cant": "all JSON responses", "anchors": ["dataplicity/jsonrpc.py:JSONRPC.call"]}
{"id": "C69", "title": "RPC errors are classified by code", "statement": "A response with an error raises RemoteError exactly for the five standard codes and RemoteMethodError for any other, carrying method, code, data and message of the response, or the standard message if it has none.", "quantifier": "every error object", "why_tests_cant": "all codes and shapes", "anchors": ["dataplicity/jsonrpc.py:JSONRPC._handle_error"]}
{"id": "C70", "title": "Call ids are fresh", "statement": "No two calls made with generated ids on one client, direct or batched, ever have the same id.", "quantifier": "every sequence of calls", "why_tests_cant": "all sequences", "anchors": ["dataplicity/jsonrpc.py:JSONRPC.new_call_id", "dataplicity/jsonrpc.py:Batch.call"]}
{"id": "C71", "title": "Ids within a batch are unique", "statement": "A batch never holds two calls with the same id; a supplied id that is already used is refused.", "quantifier": "every sequence of additions to a batch", "why_tests_cant": "all sequences", "anchors": ["dataplicity/jsonrpc.py:Batch.call_with_id", "dataplicity/jsonrpc.py:Batch.call"]}
{"id": "C72", "title": "A batch is sent exactly when its block succeeds", "statement": "Leaving the batch block sends all added calls once, in order, if no exception was raised and it was not abandoned, and sends nothing otherwise.", "quantifier": "every sequence of additions and every way to leave the block", "why_tests_cant": "all sequences", "anchors": ["dataplicity/jsonrpc.py:Batch.__exit__", "dataplicity/jsonrpc.py:Batch.send"]}
{"id": "C73", "title": "Batch results belong to their calls", "statement": "After a batch was answered, get_result(id) gives the result of the response with that id whatever the order of the responses, raises the error of the response with that id, or raises KeyError if there is none.", "quantifier": "every reply, with responses in any order and with any ids, also repeated ones", "why_tests_cant": "all orders and subsets of responses", "anchors": ["dataplicity/jsonrpc.py:Batch.send", "dataplicity/jsonrpc.py:Batch.get_result"]}
{"id": "C74", "title": "Bad server replies raise documented errors only", "statement": "Whatever the server replies, call() either returns or raises ProtocolError, RemoteError, RemoteMethodError or ServerUnreachableError.", "quantifier": "every reply text", "why_tests_cant": "all replies", "anchors": ["dataplicity/jsonrpc.py:JSONRPC.call", "dataplicity/jsonrpc.py:JSONRPC._handle_error"]}
{"id": "C75", "title": "Polling never fails", "statement": "Whatever the network, server, disk or tag script do, a poll returns normally, so that the agent keeps polling until it is told to exit.", "quantifier": "every combination of failures in every sequence of polls", "why_tests_cant": "all failure combinations", "anchors": ["dataplicity/client.py:Client.poll", "dataplicity/client.py:Client.sync", "dataplicity/client.py:Client.run_forever"]}
{"id": "C76", "title": "Disk usage is reported at most hourly", "statement": "Two disk reports are always at least 3600 seconds apart, and the first poll reports.", "quantifier": "every sequence of polls at any clock readings, even a clock that jumps", "why_tests_cant": "all clock histories", "anchors": ["dataplicity/client.py:Client.disk_poll"]}
{"id": "C77", "title": "Tags are sent when they changed, until acknowledged", "statement": "A poll sends the tag list exactly if it differs from the list last acknowledged by the server (nothing acknowledged at start); after an acknowledgement the same list is not sent again; after a failure it is sent again at the next poll.", "quantifier": "every history of tag lists and server answers", "why_tests_cant": "all histories", "anchors": ["dataplicity/client.py:Client.tag_poll"]}
{"id": "C78", "title": "Device information is sent until acknowledged, then never again", "statement": "Device information is sent at every sync until the server has accepted all six items and the authentication, and never after that.", "quantifier": "every history of syncs and server answers", "why_tests_cant": "all histories", "anchors": ["dataplicity/client.py:Client._sync", "dataplicity/client.py:Client._check_meta"]}
{"id": "C79", "title": "An identity counts as announced only if the server accepted it", "statement": "Announcing an identity returns it exactly if the server was reached, and answered both the authentication and the association without error; otherwise None; it never raises.", "quantifier": "every identity and server answer", "why_tests_cant": "all answers", "anchors": ["dataplicity/client.py:Client.set_m2m_identity"]}
{"id": "C80", "title": "Device information can not be corrupted by a caller", "statement": "Changing the dict returned by the device information call does not change what later calls return.", "quantifier": "every history of calls and changes", "why_tests_cant": "all histories with aliasing", "anchors": ["dataplicity/device_meta.py:get_meta"]}
{"id": "C81", "title": "Tags are well formed", "statement": "Every tag taken from the output of the tag script is non-empty, at most 25 characters, contains no comma or white space, and tags keep their order; tags that satisfy this and are joined by separators are read back unchanged.", "quantifier": "every script output", "why_tests_cant": "all outputs", "anchors": ["dataplicity/tags.py:get_tag_list"]}
{"id": "C82", "title": "The machine revision is the first revision entry", "statement": "The machine revision is the trimmed lower-case value of the first cpuinfo line whose trimmed, case-folded key is revision, and None if there is none.", "quantifier": "every cpuinfo content", "why_tests_cant": "all contents", "anchors": ["dataplicity/rpi.py:get_machine_revision"]}
{"id": "C83", "title": "Interface addresses are extracted faithfully", "statement": "From the records returned by the system, the name and IPv4 address of every interface is returned, in order.", "quantifier": "every list of interface records", "why_tests_cant": "all record lists", "anchors": ["dataplicity/iptool.py:get_all_interfaces"]}
{"id": "C84", "title": "Limits from the environment are usable", "statement": "Whatever the environment variable holds, the resulting limit is its integer value or the default, and the agent starts.", "quantifier": "every value of the environment variable", "why_tests_cant": "all strings", "anchors": ["dataplicity/constants.py:get_environ_int", "dataplicity/limiter.py:Limiter.__init__"]}
{"id": "C85", "title": "Disk figures are consistent", "statement": "Reported used space plus space free for root equals total space, used is never negative or above total for a consistent file system, and the percentage lies between 0 and 100.", "quantifier": "every file system statistics record", "why_tests_cant": "all numeric values, including zero", "anchors": ["dataplicity/disk_tools.py:disk_usage", "dataplicity/disk_tools.py:usage_percent"]}
{"id": "C86", "title": "The clock guard restarts exactly on big jumps", "statement": "The process is killed if and only if more than 180 seconds of wall clock passed during a one second check.", "quantifier": "every sequence of clock readings", "why_tests_cant": "all clock histories", "anchors": ["dataplicity/clockcheck.py:ClockCheckThread.run"]}
{"id": "C87", "title": "Instructions do what they name and nothing else", "statement": "An instruction triggers exactly the one operation named by its action, with the arguments in the message, and an unknown action, or a message with missing arguments, triggers none.", "quantifier": "every instruction message", "why_tests_cant": "all messages", "anchors": ["dataplicity/m2mmanager.py:M2MManager.on_instruction"]}
{"id": "C88", "title": "Feature flags are appended once", "statement": "The m2m address used has the feature query appended exactly when it had no query, and contains the feature names; applying the rule again changes nothing.", "quantifier": "every address", "why_tests_cant": "all strings", "anchors": ["dataplicity/client.py:Client.__init__"]}
{"id": "C89", "title": "Encoding follows the bencode format", "statement": "The bytes returned by encode are the standard bencode notation of the value: decimal numbers without leading zeros, lengths in bytes, dict keys in ascending order.", "quantifier": "every supported value", "why_tests_cant": "all nested values", "anchors": ["dataplicity/m2m/bencode.py:encode"]}
{"id": "C90", "title": "A channel sees exactly its own traffic", "statement": "From the moment a channel exists until the server closes it, its state and the callbacks it calls depend only on the data and control messages addressed to it, on disconnects and on the calls made on it, in their order, whatever else the client receives; and each write, control message or close request of a service becomes exactly one message carrying that channel's number.", "quantifier": "every history of the client before and after the channel was created", "why_tests_cant": "all interleavings of the traffic of all channels", "anchors": ["dataplicity/m2m/wsclient.py:WSClient.handle_route", "dataplicity/m2m/wsclient.py:WSClient.channel_write", "dataplicity/m2m/wsclient.py:Channel"]}
{"id": "C92", "title": "Terminals keep track of their live processes", "statement": "A terminal knows every process it launched that is not closed; closing the terminal closes each of these exactly once, even if closing one of them raises, and no other.", "quantifier": "every history of launches, closed channels and closes", "why_tests_cant": "all histories", "anchors": ["dataplicity/m2mmanager.py:Terminal.launch", "dataplicity/m2mmanager.py:Terminal.close", "dataplicity/m2mmanager.py:Terminal._prune_closed"]}
{"id": "C93", "title": "Downloads for a missing directory are refused", "statement": "A download whose destination lies in a directory that does not exist is answered with failure code 3 and changes nothing in the remote directory; the fallback to the top of the remote directory that the code prepares is never taken.", "quantifier": "every destination and file system state", "why_tests_cant": "all destinations", "anchors": ["dataplicity/remote_directory.py:RemoteDirectory.copy_download", "dataplicity/remote_directory.py:RemoteDirectory.on_write_remote_file"]}
{"id": "C94", "title": "An identity is announced until it is accepted", "statement": "The m2m identity is announced to the server exactly if it is not empty and the last announcement was not an accepted one of the same identity.", "quantifier": "every history of identities and server answers", "why_tests_cant": "all histories", "anchors": ["dataplicity/m2mmanager.py:M2MManager.set_identity", "dataplicity/client.py:Client.set_m2m_identity"]}
{"id": "C95", "title": "Device information can always be got", "statement": "The first request for device information returns all six items, whatever the files of the system contain; files that are missing give None or an empty text.", "quantifier": "every content of the files read", "why_tests_cant": "all file contents", "anchors": ["dataplicity/device_meta.py:get_meta", "dataplicity/rpi.py:get_machine_revision", "dataplicity/rpi.py:get_model_name"]}
{"id": "C91", "title": "Requests of the server reach their handler exactly once", "statement": "The manager and the remote directory are called exactly once for each instruction or file request the server sends on an open connection, in the order in which they arrive, with what is in the message, and are never called otherwise.", "quantifier": "every sequence of messages", "why_tests_cant": "all sequences of messages", "anchors": ["dataplicity/m2m/wsclient.py:WSClient.on_instruction_packet", "dataplicity/m2m/wsclient.py:WSClient.on_packet"]}
{"id": "C96", "title": "Instructions are served from the first moment", "statement": "Whenever the connection to the server is up, an instruction does what it would do in the running agent, also while the agent is still starting.", "quantifier": "every instruction at every step of the start", "why_tests_cant": "depends on how start and network interleave", "anchors": ["dataplicity/m2mmanager.py:M2MManager.init", "dataplicity/client.py:Client._init"]}
{"id": "C97", "title": "A client has the serial and token it was given", "statement": "A serial or token given on the command line is the one used; otherwise it is the content of the file without the white space around it; a client that has started has a serial and a token that are not empty.", "quantifier": "every command line and file content", "why_tests_cant": "all strings", "anchors": ["dataplicity/client.py:Client._init", "dataplicity/client.py:Client._read"]}
{"id": "C98", "title": "The exit status tells how the command ended", "statement": "The exit status is 0 exactly if logging could be set up and the subcommand ended without an exception; an exception of the subcommand gives 255 unless debugging, and a missing subcommand gives 1.", "quantifier": "every command line and outcome of the subcommand", "why_tests_cant": "all combinations", "anchors": ["dataplicity/app.py:App.run", "dataplicity/app.py:main"]}
{"id": "C99", "title": "The log level is the one named", "statement": "Each level name, in upper or lower case, sets its level; quiet sets the highest; any other name is reported as an invalid log level.", "quantifier": "every level name", "why_tests_cant": "all strings", "anchors": ["dataplicity/app.py:App._init_logging"]}
{"id": "C100", "title": "The end of the connection closes every channel", "statement": "When the connection to the server is lost or the receive thread ends, every channel is closed, and the close callback of each channel that was open is called exactly once.", "quantifier": "every history of events and every way in which the receive thread ends", "why_tests_cant": "all histories and failures of the websocket", "anchors": ["dataplicity/m2m/wsclient.py:WSClient.run", "dataplicity/m2m/wsclient.py:WSClient.hard_close_channels"]}
{"id": "C101", "title": "The server receives exactly what was sent on a channel", "statement": "From the moment a channel exists until the server closes it, the messages for that channel among all the messages the server receives are, decoded, exactly the data, control messages and close requests that the calls on the channel have sent, in the same order, whatever happens on other channels.", "quantifier": "every history of events, every interleaving with other channels", "why_tests_cant": "all histories and interleavings of threads", "anchors": ["dataplicity/m2m/wsclient.py:WSClient.send", "dataplicity/m2m/wsclient.py:Channel.write", "dataplicity/m2m/wsclient.py:Channel.close", "dataplicity/m2m/packetbase.py:PacketBase.as_bytes"]}
{"id": "C102", "title": "A requested file arrives at the server", "statement": "What the server receives on the channel of a file service is the beginning of the file, then at most one error report, then at most one request to close, whatever happens meanwhile; if no operation fails and the channel is not ended, it is the whole file in non-empty pieces of at most 1 MiB followed by the request to close; and the thread of the service ends after a number of statements bounded by the size of the file.", "quantifier": "every file content, every interleaving with events of the client, every failure", "why_tests_cant": "all interleavings of the service thread with the receive thread", "anchors": ["dataplicity/m2m/fileservice.py:FileService.run", "dataplicity/m2m/wsclient.py:Channel.write", "dataplicity/m2m/wsclient.py:WSClient.send"]}
{"id": "C103", "title": "Nothing of an old service is sent under its number after its channel was closed", "statement": "Once the server has closed a channel nothing that its service sends reaches the server any more with the number of the channel; in particular it does not reach a new channel that the server opens with the same number.", "quantifier": "every schedule of the service and the client", "why_tests_cant": "needs a switch of threads between the check and the sending", "anchors": ["dataplicity/m2m/wsclient.py:Channel.write", "dataplicity/m2m/wsclient.py:WSClient.on_notify_close", "dataplicity/m2m/wsclient.py:WSClient.get_channel"]}
{"id": "C104", "title": "Every message of the client is a well-formed packet", "statement": "Every message that the client sends is the wire form of a join, identify, data, pong, close, control or scan result packet with values of the right types.", "quantifier": "every history of events", "why_tests_cant": "all histories", "anchors": ["dataplicity/m2m/wsclient.py:WSClient.send", "dataplicity/m2m/packets.py:PacketType"]}
{"id": "C105", "title": "An echo service returns every message once, in order", "statement": "What the server receives on the channel of an echo service is at any moment the beginning of the sequence of messages it has sent to that channel, and the whole sequence once the receive thread has handled them, whatever other threads do meanwhile.", "quantifier": "every sequence of messages and every interleaving", "why_tests_cant": "all sequences and interleavings", "anchors": ["dataplicity/m2m/echoservice.py:EchoService.on_data", "dataplicity/m2m/wsclient.py:WSClient.handle_route", "dataplicity/m2m/wsclient.py:Channel.on_data"]}
{"id": "C106", "title": "Decoding does not amplify", "statement": "The value decoded from a message has no more objects, bytes of strings and digits of integers together than the message has bytes.", "quantifier": "every message that decodes", "why_tests_cant": "all messages", "anchors": ["dataplicity/m2m/bencode.py:decode"]}
{"id": "C107", "title": "A forwarded connection carries both directions unchanged", "statement": "On an open channel of a forwarded connection the server receives the pieces read from the local socket in order, followed by the request to close when the thread ends; and as long as the local socket accepts data, it gets the data that the server sent to the channel in order, what is missing being still in the buffer.", "quantifier": "every interleaving of the receive thread, the forwarding thread and other threads", "why_tests_cant": "all interleavings", "anchors": ["dataplicity/portforward.py:Connection._run", "dataplicity/portforward.py:Connection.on_channel_data", "dataplicity/m2m/wsclient.py:WSClient.handle_route"]}
{"id": "C108", "title": "What the server receives on a channel has no gaps", "statement": "Connections may be lost and made anew at any time.  The messages of a channel that reach the server are always the beginning of those that the service has sent: after a message was lost, no later message of the same channel arrives.", "quantifier": "every history of calls, losses of the connection and new connections", "why_tests_cant": "needs a connection that is lost in a given moment", "anchors": ["dataplicity/m2m/wsclient.py:WSClient.send_bytes", "dataplicity/m2m/wsclient.py:WSClient.hard_close_channels", "dataplicity/m2m/wsclient.py:Channel.write"]}
{"id": "C109", "title": "The calls of a service thread take effect in order", "statement": "Whatever sequence of writes, control messages and closes the thread of a service makes, the server receives the beginning of the sequence of their messages on the channel, and the whole of it after the thread has made its calls if the channel is not ended meanwhile.", "quantifier": "every sequence of calls and every interleaving with the receive thread", "why_tests_cant": "all interleavings", "anchors": ["dataplicity/m2m/wsclient.py:Channel.write", "dataplicity/m2m/wsclient.py:Channel.send_control", "dataplicity/m2m/wsclient.py:Channel.close"]}
{"id": "C110", "title": "The output of a command arrives at the server", "statement": "At every moment the data that the server has received on the channel of a command service is the beginning of the standard output of the command; after the command has ended, if the channel was not ended meanwhile, the server has received all the output, then the message with the return code, and last the request to close.", "quantifier": "every output of every command, every interleaving of the service with the client", "why_tests_cant": "all outputs and interleavings", "anchors": ["dataplicity/m2m/commandservice.py:CommandService.run", "dataplicity/m2m/wsclient.py:Channel.write", "dataplicity/m2m/wsclient.py:WSClient.send"]}
{"id": "C111", "title": "A file that the server reads over the connection is the file at the time of opening", "statement": "The server sends an open request with a plain id and a path and receives a size with code 0.  Then a file of that size was at the path inside the remote directory; and whatever events of the client, other requests and changes of files by other programs follow, as long as this id is not opened again or closed and nobody disturbs the snapshot, every read request for the id is answered exactly once, in order, with code 0 and exactly the requested bytes of the contents at the time of opening.  Consecutive pieces give the whole file.", "quantifier": "every id that is a plain file name, every file, every sequence of messages and other events", "why_tests_cant": "all sequences of messages and file changes", "anchors": ["dataplicity/m2m/wsclient.py:WSClient.on_binary", "dataplicity/remote_directory.py:RemoteDirectory.on_open_remote_file", "dataplicity/remote_directory.py:RemoteDirectory.on_read_remote_file"]}
{"id": "C112", "title": "A file that the server sends over the connection is stored if all chunks are acknowledged", "statement": "The server sends a file in write requests, in any order and with overlaps, the last one final, and every request is answered with code 0.  Then each answer has the position at the end of its chunk, and after the last request a file with exactly the contents sent lies at the name that is chosen for it, which was free; no other file was changed by it and the temporary file is gone; whatever other events and requests came between, as long as they do not name this temporary file.", "quantifier": "every content, every division into chunks, every sequence of messages and other events, every outcome of the system calls", "why_tests_cant": "all divisions and interleavings with other requests", "anchors": ["dataplicity/m2m/wsclient.py:WSClient.on_binary", "dataplicity/remote_directory.py:RemoteDirectory.on_write_remote_file"]}
{"id": "C113", "title": "Only well-formed resize requests change a terminal", "statement": "A control message that is not a well-formed resize request (an object with type window_resize and a size of two integers that fit in 16 bits) changes nothing about a terminal: neither the size of its window, nor whether its output is sent.  The window has the size of the last well-formed request.", "quantifier": "every sequence of control messages, JSON or not, before and after the start of the process", "why_tests_cant": "all JSON values", "anchors": ["dataplicity/m2m/remoteprocess.py:RemoteProcess.on_control", "dataplicity/m2m/proxy.py:Interceptor.resize_terminal", "dataplicity/m2m/proxy.py:Interceptor._set_pty_size"]}
{"id": "C114", "title": "Terminal input is written to the terminal only", "statement": "Data that the server sends to a terminal is never written to another file or connection of the agent, whatever other threads open and close.", "quantifier": "every interleaving of the receive thread, the thread of the terminal and other threads", "why_tests_cant": "needs a descriptor that is reused in a given moment", "anchors": ["dataplicity/m2m/proxy.py:Interceptor.write_master", "dataplicity/m2m/proxy.py:Interceptor.spawn"]}
{"id": "C115", "title": "A terminal carries both directions unchanged", "statement": "While a terminal runs, the data that the server receives on its channel is at every moment the beginning of what was read from the terminal, and the bytes written to the process are the beginning of the data that the server has sent to the channel; both are complete once the threads have come to the end of their work.", "quantifier": "every output, every sequence of messages, every interleaving of the threads", "why_tests_cant": "all interleavings", "anchors": ["dataplicity/m2m/remoteprocess.py:RemoteProcess.master_read", "dataplicity/m2m/remoteprocess.py:RemoteProcess.on_data", "dataplicity/m2m/wsclient.py:WSClient.handle_route"]}
{"id": "C116", "title": "Calls on a server that follows JSON-RPC 2.0 give what the procedure gives", "statement": "If the server follows the JSON-RPC 2.0 specification, a direct call returns the result of the procedure or raises its error; a batch raises nothing, whatever calls and notifications it is made of, and get_result of each call returns the result of its procedure or raises its error, in whatever order the responses come.", "quantifier": "every server, every call, every batch, every order of the responses", "why_tests_cant": "all servers and replies", "anchors": ["dataplicity/jsonrpc.py:JSONRPC.call", "dataplicity/jsonrpc.py:Batch._send", "dataplicity/jsonrpc.py:Batch.get_result"]}
{"id": "C117", "title": "The server has the tags that the client takes for acknowledged", "statement": "At every moment the tags that the client takes for acknowledged, and does not send again, are the tags that the server has stored last, whatever requests and replies have been lost.", "quantifier": "every history of polls, syncs and announcements, every loss of requests and replies", "why_tests_cant": "needs a reply that is lost in a given moment", "anchors": ["dataplicity/client.py:Client.tag_poll", "dataplicity/jsonrpc.py:Batch._send"]}
{"id": "C118", "title": "The server has the information about the device that the client takes for sent", "statement": "Once the client takes the information about the device for sent, the server has all six parts of it, as they were found in one and the same sync, whatever requests and replies have been lost.", "quantifier": "every history of polls, syncs and announcements, every loss of requests and replies", "why_tests_cant": "all histories and losses", "anchors": ["dataplicity/client.py:Client._sync", "dataplicity/client.py:Client._check_meta"]}
{"id": "C119", "title": "The server has the identity that the manager takes for announced", "statement": "At every moment the identity that the manager takes for announced, and does not announce again, is the one that the server has stored last, whatever requests and replies have been lost.", "quantifier": "every history of polls, syncs and announcements, every loss of requests and replies", "why_tests_cant": "all histories and losses", "anchors": ["dataplicity/client.py:Client.set_m2m_identity", "dataplicity/m2mmanager.py:M2MManager.set_identity"]}
{"id": "C120", "title": "A server that was told of a scan reads its result", "statement": "A server that asks for a scan of the remote directory and is told that it succeeded, and then opens the special path for the result and is told a size with code 0, gets the length of the JSON of a scan, and its read requests are answered, in order and one by one, with exactly the bytes of this JSON.", "quantifier": "every interleaving of the receive thread and the scan threads, every sequence of messages and other events", "why_tests_cant": "needs a second scan that runs at a given moment", "anchors": ["dataplicity/m2m/wsclient.py:WSClient.on_scan_remote_directory", "dataplicity/directory_scanner.py:DirectoryScanner", "dataplicity/remote_directory.py:RemoteDirectory.on_open_remote_file"]}
{"id": "C121", "title": "A blocking read of a channel waits only for data", "statement": "A thread that calls read with block=True waits only while no message is buffered, and is woken by the next message; without a time limit it returns at least one byte, and it returns when the channel is closed.  The bytes returned to all threads together are the bytes that arrived, in order.", "quantifier": "every number of threads, every interleaving, every sequence of messages and reads", "why_tests_cant": "needs given interleavings of several threads", "anchors": ["dataplicity/m2m/wsclient.py:Channel.read", "dataplicity/m2m/wsclient.py:Channel.on_data", "dataplicity/m2m/wsclient.py:Channel.on_close"]}
{"id": "C122", "title": "A file that the server asks for arrives on the channel it named", "statement": "After a message with the instruction read-file for a channel that nobody else uses, the server receives on this channel the beginning of that file, then at most one error report, then at most one request to close, and the whole file and the request to close if nothing fails and the channel is not ended; if the file can not be opened, the error report and the request to close; if all slots are taken or no thread can be started, SERVER_BUSY and the request to close.", "quantifier": "every history of the agent before and after, every number of other services running at the same time, every interleaving of all threads", "why_tests_cant": "all interleavings of many services", "anchors": ["dataplicity/m2mmanager.py:M2MManager.open_file_service", "dataplicity/m2m/fileservice.py:FileService", "dataplicity/limiter.py:Limiter"]}
{"id": "C123", "title": "The output of a command that the server asks for arrives on the channel it named", "statement": "After a message with the instruction run-command for a channel that nobody else uses, the data that the server receives on this channel is at every moment the beginning of the standard output of the command; once the service has done its work and if the channel is not ended, it has received all the output, then the message with the return code, and last the request to close; if all slots are taken or no thread can be started, an error message and the request to close.", "quantifier": "every history of the agent before and after, every number of other services running at the same time, every interleaving of all threads", "why_tests_cant": "all interleavings of many services", "anchors": ["dataplicity/m2mmanager.py:M2MManager.open_command_service", "dataplicity/m2m/commandservice.py:CommandService", "dataplicity/limiter.py:Limiter"]}
{"id": "C124", "title": "Services never use more slots than there are, and give them back", "statement": "In every history of instructions, failures, losses of the connection and steps of the services, the value of the limiter is the number of slots that services hold, which is never larger than the limit; every file and command service gives its slot back after a bounded number of its steps, whatever fails and whatever happens to its channel.", "quantifier": "every history of the agent, every number of services", "why_tests_cant": "all histories", "anchors": ["dataplicity/limiter.py:Limiter.increment", "dataplicity/limiter.py:Limiter.decrement", "dataplicity/m2m/fileservice.py:FileService.run_service", "dataplicity/m2m/commandservice.py:CommandService.run_service"]}
{"id": "C125", "title": "Files outside the remote directory are not served, symbolic links included", "statement": "Whatever path is requested, and whatever symbolic links there are, the file that an accepted open request snapshots, whose size is reported and whose bytes are returned by reads, lies inside the place to which the path of the remote directory leads.", "quantifier": "every file system with symbolic links, every path, every behaviour of the operating system", "why_tests_cant": "every arrangement of links", "anchors": ["dataplicity/remote_directory.py:RemoteDirectory.add_upload", "dataplicity/remote_directory.py:validate_path"]}
{"id": "C126", "title": "The agent's temporary files do not lead it to other files", "statement": "Whatever other programs have put into the folders for temporary files, opening, reading and closing an upload with a plain id, and storing the result of a scan, read and change only entries of these folders.", "quantifier": "every file system with symbolic links, every plain id, every behaviour of the operating system", "why_tests_cant": "every arrangement of links", "anchors": ["dataplicity/remote_directory.py:RemoteDirectory.get_snapshot_path", "dataplicity/remote_directory.py:RemoteDirectory.close_upload", "dataplicity/directory_scanner.py:DirectoryScanner.write_scan"]}
{"id": "C127", "title": "A download is stored inside the remote directory, symbolic links included", "statement": "Whatever symbolic links there are, the end of a download to a path that does not go up changes only the temporary file and places inside the place to which the path of the remote directory leads.", "quantifier": "every file system with symbolic links, every path that does not go up, every behaviour of the operating system", "why_tests_cant": "every arrangement of links", "anchors": ["dataplicity/remote_directory.py:RemoteDirectory.copy_download"]}
{"id": "C128", "title": "A file of the remote directory can be fetched when nothing goes wrong", "statement": "If the server asks for an existing file of the remote directory under a plain id, the temporary folder exists, 50 MB stay free and the operating system does what it is asked, the request is answered once, with the size of the file and no failure; a server that then reads the size in consecutive pieces has the contents of the file at the time of opening, whatever else happens between.", "quantifier": "every file, path of names, id, file system, other event between", "why_tests_cant": "every arrangement of files and every interleaving", "anchors": ["dataplicity/remote_directory.py:RemoteDirectory.add_upload", "dataplicity/remote_directory.py:RemoteDirectory.on_open_remote_file", "dataplicity/remote_directory.py:RemoteDirectory.on_read_remote_file"]}
{"id": "C129", "title": "A file sent by the server arrives when nothing goes wrong", "statement": "If the server sends a file in chunks that cover it, in any order, and the device is ready for each request in the state in which it comes (temporary folder, directory of the destination, a free name, an operating system that does what it is asked), every chunk is acknowledged at its end, and after the last one the file lies with exactly the contents sent under the first free name of the requested one and its numbered variants; the temporary file is gone and all other files are unchanged.", "quantifier": "every content, set of chunks, path of names, id, file system, other event between", "why_tests_cant": "every order of chunks and every interleaving", "anchors": ["dataplicity/remote_directory.py:RemoteDirectory.add_download", "dataplicity/remote_directory.py:RemoteDirectory.on_write_remote_file", "dataplicity/remote_directory.py:RemoteDirectory.copy_download"]}
{"id": "C130", "title": "The language that decode accepts", "statement": "decode returns a value exactly if the input starts with an encoding of it as written down by a grammar (string lengths and integers in everything int() accepts, dict keys that are strings or integers, the last value winning for a repeated key, in the order of first occurrence), whatever follows; it raises exactly for the inputs of a second grammar, and never ends exactly for those of a third one, where the input ends within a string length; each input belongs to exactly one of the three.", "quantifier": "every byte string", "why_tests_cant": "all inputs", "anchors": ["dataplicity/m2m/bencode.py:_decode", "dataplicity/m2m/bencode.py:decode"]}
{"id": "C131", "title": "The exit of a terminal process is collected", "statement": "After the hang-up of a terminal, the exit status of its process is collected in the first poll after its end, and polling stops there, if the process ends within a day; the agent gives up only after at least seven polls that found the process running, one of them at least a day after the start, and a process that runs on after that is left alone.", "quantifier": "every timing of the process exit and every clock", "why_tests_cant": "all timings and clock jumps", "anchors": ["dataplicity/m2m/remoteprocess.py:PidWaitThread.run"]}
{"id": "C132", "title": "An echo service that the server asks for sends back what the server sends to the channel it named", "statement": "After a message with the instruction open-echo for a free channel, what the server receives on that channel is at every moment the beginning of the messages that it sends to the channel, and all of them once they were handled.", "quantifier": "every history before the message, every traffic afterwards, every interleaving with other threads", "why_tests_cant": "all histories and interleavings", "anchors": ["dataplicity/m2mmanager.py:M2MManager.open_echo_service", "dataplicity/m2m/echoservice.py:EchoService"]}
{"id": "C133", "title": "A connection that the server asks for goes to the port it named and uses the channel it named", "statement": "After a message with the instruction open-portforward or open-portredirect for a free channel, one connection is started, to the port of the named service or to the named port on 127.0.0.1; the server receives on that channel what is read from the local socket, in order, and the local socket gets what the server sends, in order; without a free slot, or if no thread can be started, the server receives SERVER_BUSY and the request to close; for an unknown service nothing changes.", "quantifier": "every history before the message, every traffic afterwards, every interleaving of the threads", "why_tests_cant": "all histories and interleavings", "anchors": ["dataplicity/portforward.py:PortForwardManager.open_service", "dataplicity/portforward.py:PortForwardManager.redirect_port", "dataplicity/portforward.py:Service.connect", "dataplicity/portforward.py:Connection"]}
{"id": "C134", "title": "A terminal that the server asks for gets the input that the server sends afterwards", "statement": "After a message with the instruction open-terminal for a free channel, the process gets the data that the server sends to the channel, in order and completely, and the server receives the output of the process; without a free slot, or if no thread can be started, the server receives a message that says so and the request to close.", "quantifier": "every history before the message, every traffic afterwards, every interleaving of the threads", "why_tests_cant": "all histories and interleavings; the time the process takes to start", "anchors": ["dataplicity/m2mmanager.py:M2MManager.open_terminal", "dataplicity/m2mmanager.py:Terminal.launch", "dataplicity/m2m/remoteprocess.py:RemoteProcess"]}
{"id": "C135", "title": "Data for a terminal that does not run is refused message by message", "statement": "Each message for the channel of a terminal whose process has not started yet, or has ended, leads to exactly one request to close the channel; nothing is written, and the receive thread goes on with the next message.", "quantifier": "every sequence of messages, every interleaving with other threads", "why_tests_cant": "all sequences and interleavings", "anchors": ["dataplicity/m2m/remoteprocess.py:RemoteProcess.on_data", "dataplicity/m2m/proxy.py:Interceptor.stdin_read"]}
{"id": "C136", "title": "Limits of the interpreter only make messages be refused", "statement": "Whatever limits the interpreter has for nested calls and for the digits of numbers, decode does what it does without them or raises RecursionError or ValueError; data in bencode format is decoded exactly if it is not nested too deeply and no number is too long; and the client does at all times what it would do without limits if the messages that exceed them were empty.", "quantifier": "every limit, input and history of events", "why_tests_cant": "all inputs and limits", "anchors": ["dataplicity/m2m/bencode.py:decode", "dataplicity/m2m/bencode.py:_decode", "dataplicity/m2m/wsclient.py:WSClient.on_binary"]}
{"id": "C137", "title": "With limits of the interpreter, values are encoded correctly or not at all", "statement": "Whatever limits the interpreter has for nested calls and for the digits of numbers, encode returns bytes exactly if it would without the limits and the value is not nested too deeply and no number is too long, and then the same bytes; three nested calls are enough for every packet of the agent.", "quantifier": "every limit and value", "why_tests_cant": "all values and limits", "anchors": ["dataplicity/m2m/bencode.py:encode", "dataplicity/m2m/packetbase.py:PacketBaseType.encode_binary"]}
{"id": "C138", "title": "A requested exit ends the agent", "statement": "After Client.exit was called, run_forever comes to its end as soon as both threads get on, with at most one more poll; it ends in no other case than after such a request, an interrupt, an exception of a poll or the failure to start the clock thread; an exception leaves it only if a poll raised it and it is no KeyboardInterrupt, if the clock thread could not be started or if an interrupt came during the end; when it has returned the clock thread has ended, so that it can not kill the process any more; and the process is killed only if more than 180 seconds passed during a check. As long as it is not told to end, it polls again after each wait.", "quantifier": "every interleaving of the main thread, the clock thread and the request, every clock", "why_tests_cant": "all interleavings and clock jumps", "anchors": ["dataplicity/client.py:Client.run_forever", "dataplicity/client.py:Client.exit", "dataplicity/clockcheck.py:ClockCheckThread.run"]}
{"id": "C139", "title": "The end of the agent closes its terminals", "statement": "When the agent has come to its end, every process that a terminal launched and that was not closed has been closed.", "quantifier": "every history of terminals and every way to the end", "why_tests_cant": "all histories", "anchors": ["dataplicity/client.py:Client.close", "dataplicity/m2mmanager.py:M2MManager.on_client_close", "dataplicity/m2mmanager.py:Terminal.close"]}
{"id": "C140", "title": "Every file in a scan can be fetched as listed", "statement": "A file that a scan lists under a directory leads, under the path of the directory followed by its name, to a regular file; the size listed is its size (or -1 if it could not be got); and a server that asks for this path gets this size and can read exactly its bytes, if the operating system does what it is asked.", "quantifier": "every file system with links, every behaviour of the operating system during the scan, every id and range", "why_tests_cant": "all file systems and failures", "anchors": ["dataplicity/scan_directory.py:scan_directory", "dataplicity/directory_scanner.py:DirectoryScanner._perform_scan", "dataplicity/remote_directory.py:RemoteDirectory.add_upload", "dataplicity/remote_directory.py:RemoteDirectory.read_upload"]}
{"id": "C141", "title": "A scan lists only what lies in the remote directory", "statement": "Whatever symbolic links there are, the directories and files that a scan lists lie inside the place to which the path of the remote directory leads.", "quantifier": "every file system with links, every behaviour of the operating system during the scan", "why_tests_cant": "every arrangement of links", "anchors": ["dataplicity/scan_directory.py:scan_directory", "dataplicity/directory_scanner.py:DirectoryScanner._perform_scan"]}
{"id": "C142", "title": "A scan of a directory without links lists exactly its visible files and directories", "statement": "If there are no links in the remote directory and the operating system answers, a scan ends without an exception; its result has exactly the directories less than ten levels deep whose path has no name that starts with a dot, and for each of them exactly the files in it that do not start with a dot, with their sizes, and exactly such directories, each once.", "quantifier": "every file system without links in the remote directory, every order of the listings", "why_tests_cant": "all file systems", "anchors": ["dataplicity/scan_directory.py:scan_directory", "dataplicity/directory_scanner.py:DirectoryScanner._perform_scan"]}
{"id": "C143", "title": "The log shows at most the first 32 bytes of the data in a packet", "statement": "The printable form of a packet, complete or not, depends only on the first 32 bytes and on the length of each byte string in it that is longer than 32 bytes.", "quantifier": "every packet class and every pair of values", "why_tests_cant": "relates two runs for all values", "anchors": ["dataplicity/m2m/packetbase.py:PacketBaseType.__repr__"]}
{"id": "C144", "title": "The local service is told the end of the stream when the server closes the channel", "statement": "After the server has closed the channel of a forwarded connection, the local service has been given all bytes routed before and the write side of the local socket is shut down; it is shut down in no other case, and nothing is sent afterwards.", "quantifier": "every interleaving of incoming messages, the close and the connecting thread, every failure of the socket", "why_tests_cant": "all interleavings and failure points", "anchors": ["dataplicity/portforward.py:Connection.on_channel_close", "dataplicity/portforward.py:Connection._shutdown_write", "dataplicity/portforward.py:Connection._connect"]}
{"id": "C145", "title": "Slots of terminals and of other services are counted apart, and given to every request that starts a thread", "statement": "Whatever messages come and whatever else happens, as many slots of each limiter are taken as terminals, or forwarded connections, file and command services, run, and never more than its limit; a message that asks for one of these starts exactly one if fewer than the limit of its kind run and a thread can be started, however many run of the other kind, and none otherwise; every other message, and a request with an unknown name, a malformed route or an unusable channel, starts nothing.", "quantifier": "every history of messages, events and ends of threads, both limits", "why_tests_cant": "all histories", "anchors": ["dataplicity/m2mmanager.py:M2MManager.on_instruction", "dataplicity/limiter.py:limiter_context", "dataplicity/portforward.py:PortForwardManager.open_service", "dataplicity/portforward.py:PortForwardManager.redirect_port"]}
{"id": "C146", "title": "A scan loses nothing that can be reached", "statement": "Whatever links to directories there are, every directory that can be reached along names that do not start with a dot, within the depth limit, is listed under some path that leads to it, with all its files that do not start with a dot.", "quantifier": "every graph of directories with links and circles, every order of the listings, every depth limit", "why_tests_cant": "all graphs", "anchors": ["dataplicity/scan_directory.py:scan_directory"]}
{"id": "C147", "title": "Pythons without os.scandir list each directory once, and the same result where there are no links", "statement": "With the replacement for os.DirEntry and os.scandir, no two paths in the result of a scan lead to the same directory, whatever links there are; the names listed lead to directories and to what is none; without links the result is that of os.scandir.", "quantifier": "every file system with links, every order of the listings", "why_tests_cant": "all file systems", "anchors": ["dataplicity/scan_directory.py:DirEntry", "dataplicity/scan_directory.py:scandir", "dataplicity/scan_directory.py:scan_directory"]}
{"id": "C148", "title": "The handler of a packet is the last public method that is marked for it", "statement": "Whatever attributes an object has, the dispatcher calls for a packet the last of its public methods, in the order of dir(), that are marked with @expose for that packet, and on_missing_handler if there is none; for WSClient, whatever other attributes it has, this is for each packet the method of the client's protocol. After disable() no packet reaches a method.", "quantifier": "every list of attributes and every packet", "why_tests_cant": "all objects", "anchors": ["dataplicity/m2m/dispatcher.py:expose", "dataplicity/m2m/dispatcher.py:Dispatcher._init_dispatcher", "dataplicity/m2m/dispatcher.py:Dispatcher.dispatch", "dataplicity/m2m/dispatcher.py:Dispatcher.disable"]}
{"id": "C149", "title": "A packet may be given by its name as well as by its number", "statement": "Creating or sending a packet by the name of its type has the same result as by its number, whatever the parameters; KeyError is raised exactly for bytes and for text that names no packet type; every name used by the agent has a packet class.", "quantifier": "every name, every number and all parameters", "why_tests_cant": "all texts and parameters", "anchors": ["dataplicity/m2m/packets.py:M2MPacket.process_packet_type", "dataplicity/m2m/wsclient.py:WSClient.send"]}
{"id": "C150", "title": "A terminal executes the program and the arguments that its command names", "statement": "The command of a terminal is split into words as a POSIX shell does it (plain and escaped characters, single and double quotes); the first word is the program and all words are its arguments; without words it is the program that SHELL names. No process is started exactly if a quote or an escape is not finished. Every list of arguments can be written as a command.", "quantifier": "every command, every value of SHELL", "why_tests_cant": "all texts", "anchors": ["dataplicity/m2m/remoteprocess.py:RemoteProcess.run", "dataplicity/m2m/proxy.py:Interceptor.spawn"]}
{"id": "C151", "title": "What the agent writes as JSON is JSON and stands for what was written; what it reads is read as JSON says", "statement": "json.dumps, as the agent calls it for requests, control messages and scans, gives printable ASCII that is JSON (RFC 8259) and stands for the value written, so that no two values are written alike; json.loads gives a value for exactly the texts of JSON (and Python's NaN, Infinity, -Infinity), namely the one they stand for, and of bytes in UTF-8 it takes none for another encoding.", "quantifier": "every JSON value, every text, every spelling", "why_tests_cant": "all values and texts", "anchors": ["dataplicity/jsonrpc.py:JSONRPC._send", "dataplicity/jsonrpc.py:JSONRPC.call", "dataplicity/jsonrpc.py:Batch.send", "dataplicity/m2m/remoteprocess.py:RemoteProcess.on_control", "dataplicity/m2m/wsclient.py:WSClient.channel_control_write", "dataplicity/directory_scanner.py:DirectoryScanner.write_scan"]}
{"id": "C152", "title": "A remote call gives what the server answered, whatever the spelling of the answer", "statement": "Against a server that reads JSON and follows JSON-RPC 2.0, a call returns the result of the procedure or raises its error, and so does each call of a batch, as bytes on the wire: the request is JSON in UTF-8 that stands for the call, and an answer in any spelling (spaces, escapes, order of keys and of responses) has the same effect; a body counts as JSON exactly if it is JSON in UTF-8.", "quantifier": "every server of this kind, every procedure, call and batch, every spelling", "why_tests_cant": "all servers, values and spellings", "anchors": ["dataplicity/jsonrpc.py:JSONRPC._send", "dataplicity/jsonrpc.py:JSONRPC.call", "dataplicity/jsonrpc.py:Batch.send"]}
{"id": "C153", "title": "Whoever reads the file of a scan as JSON finds exactly what the scan found", "statement": "The file written for a scan is JSON in UTF-8 in the documented format: it has the path of the remote directory, and for each path it lists exactly the subdirectories, files and sizes that the scan found there, and no path that was not scanned.", "quantifier": "every directory tree, every result of a scan, every order of the keys", "why_tests_cant": "all trees and names", "anchors": ["dataplicity/scan_directory.py:scan_directory", "dataplicity/directory_scanner.py:DirectoryScanner.write_scan"]}
{"id": "C154", "title": "The control messages of file and command services are JSON that says what happened", "statement": "A server that asks for a file which can not be opened gets a control message that is JSON and has service remote-file, type error, status ioerror and the message, and then the close request; a server that asks for a command gets all of its output and last, before the close request, a control message that is JSON and has service command, type complete and the return code of the process; a refused command is answered with a control message that is JSON, with type error, status error and the reason as text.", "quantifier": "every history, request, command, output and return code, every reason, every interleaving with other events", "why_tests_cant": "all histories, texts and interleavings", "anchors": ["dataplicity/m2m/fileservice.py:FileService.send_error", "dataplicity/m2m/commandservice.py:CommandService.send_error", "dataplicity/m2m/commandservice.py:CommandService._run_service", "dataplicity/m2m/wsclient.py:WSClient.channel_control_write"]}
{"id": "C155", "title": "A result of a scan that is not complete is never read as one", "statement": "What is in the file of a scan while it is being written, or after the agent was killed in writing it, is not JSON unless it is the complete listing of one scan: whoever reads the file as JSON, on the device at any time or over the connection once told of a success (where no scan is stored at the very time at which the agent copies the file for the server, see C185), gets an error or, for each path, exactly what the scan of one thread found there - never a part of a listing.", "quantifier": "every sequence of requests, scans, partial writes and failures, every time of reading, every listing", "why_tests_cant": "all interleavings and all points at which the file can be cut", "anchors": ["dataplicity/directory_scanner.py:DirectoryScanner.write_scan", "dataplicity/directory_scanner.py:DirectoryScanner._perform_scan", "dataplicity/remote_directory.py:RemoteDirectory.open_file"]}
{"id": "C156", "title": "Signals of a terminal reach its own process only", "statement": "Process numbers are given again by the operating system once a process has exited and was waited for. Whatever processes are born, exit and are waited for, the hang-up signal of a close and the kill signal of the thread that waits after it reach the process that the terminal has started, never another one that was given its number; however often the terminal is closed, there is at most one hang-up signal and at most one kill signal, which is sent after the hang-up signal and at least 15 seconds after the thread that waits was started. A process that does not exit gets the kill signal when the thread first looks after these 15 seconds, however often it has looked before.", "quantifier": "every interleaving of closes, waiting threads and births, exits and collections of processes", "why_tests_cant": "all schedules and all reuses of process numbers", "anchors": ["dataplicity/m2m/remoteprocess.py:RemoteProcess.close", "dataplicity/m2m/remoteprocess.py:PidWaitThread.run", "dataplicity/m2m/proxy.py:Interceptor.spawn"]}
{"id": "C157", "title": "Whoever attached itself to a channel before its end is told of the end", "statement": "A terminal or a forwarded connection that the server has asked for on a channel is told, once, when the server closes the channel or the connection is lost, so that its process or socket is closed.", "quantifier": "every history before, between and after, every channel", "why_tests_cant": "all histories", "anchors": ["dataplicity/m2m/wsclient.py:Channel.set_callbacks", "dataplicity/m2m/wsclient.py:Channel.on_close", "dataplicity/m2m/remoteprocess.py:RemoteProcess.__init__", "dataplicity/portforward.py:Connection.__init__"]}
{"id": "C158", "title": "What the client takes for acknowledged is what a server has that reads the bytes of its requests", "statement": "A server that reads the bodies of the requests as JSON in UTF-8, follows JSON-RPC 2.0 and spells its responses in any way, has all six parts of the information about the device once the client takes it for sent, has the identity that the manager takes for announced, and has the tags that the client takes for acknowledged if no reply to tags was lost; whatever else is lost on the way or answered with something that is not JSON. Every request is JSON in UTF-8 and its first call authenticates the device with serial and token.", "quantifier": "every history of polls, syncs and identities, every loss, every spelling of the responses", "why_tests_cant": "all histories, losses and spellings", "anchors": ["dataplicity/client.py:Client._sync", "dataplicity/client.py:Client.tag_poll", "dataplicity/client.py:Client.set_m2m_identity", "dataplicity/jsonrpc.py:JSONRPC._send", "dataplicity/jsonrpc.py:Batch.send"]}
{"id": "C159", "title": "A server can mirror the remote directory from what it reads in a scan", "statement": "Whatever file a server finds when it reads the file of a scan as JSON, it can ask for the path of the directory followed by the name, and gets a regular file of the listed size (or -1 where none was got) and its bytes; and where there are no links it misses nothing: every file less than ten levels deep without hidden names in its path is in the JSON with its size, and is fetched under its path.", "quantifier": "every file system, every order of listings and keys, every file", "why_tests_cant": "all file systems and names", "anchors": ["dataplicity/scan_directory.py:scan_directory", "dataplicity/directory_scanner.py:DirectoryScanner.write_scan", "dataplicity/remote_directory.py:RemoteDirectory.add_upload", "dataplicity/remote_directory.py:RemoteDirectory.read_upload"]}
{"id": "C160", "title": "Which command lines the agent accepts, and what they mean", "statement": "A command line is accepted exactly if it consists of options in their spellings (letters, which can be put together; long names, which can be shortened while unique; values in the same string, after = or in the next string), without --help and --version, and maybe the subcommand as the last string; the agent then gets for each option the value given last and the defaults for the others. Every other line ends the process with status 0 or 2.", "quantifier": "every list of strings as command line", "why_tests_cant": "all lists of strings", "anchors": ["dataplicity/app.py:App._make_arg_parser", "dataplicity/app.py:App.run", "dataplicity/subcommand.py:SubCommand"]}
{"id": "C161", "title": "The serial and the token given on the command line are used", "statement": "The serial given with --serial and the token given with --auth are those with which the agent runs, whatever they are.", "quantifier": "every serial and token, in every spelling of the options", "why_tests_cant": "all strings", "anchors": ["dataplicity/app.py:App._make_arg_parser", "dataplicity/app.py:App.make_client", "dataplicity/client.py:Client._init"]}
{"id": "C162", "title": "The command suggested after a failure shows the traceback", "statement": "When a subcommand fails, the command that is printed for a full traceback is the same program with the same arguments and --debug, and if the subcommand fails again the traceback is shown.", "quantifier": "every command line whose subcommand fails", "why_tests_cant": "all lists of strings", "anchors": ["dataplicity/app.py:App.run", "dataplicity/app.py:main"]}
{"id": "C163", "title": "Threads never wait for each other in a circle", "statement": "However many channels, connections, services, terminals and scans there are and however their threads are scheduled, no thread waits for a lock that, directly or through other waiting threads, it holds itself; whoever waits for a lock waits in the end for a thread that waits for none; locks are given back by whoever is done; and never two threads scan, send to the server or write to the log at the same time.", "quantifier": "every number of threads of each kind, every run of each (with exceptions anywhere), every schedule", "why_tests_cant": "all interleavings of any number of threads", "anchors": ["dataplicity/m2m/wsclient.py:Channel.write", "dataplicity/m2m/wsclient.py:WSClient.send_bytes", "dataplicity/portforward.py:Connection", "dataplicity/portforward.py:Service.connect", "dataplicity/limiter.py:limiter_context", "dataplicity/directory_scanner.py:DirectoryScanner._perform_scan", "dataplicity/client.py:Client.sync"]}
{"id": "C164", "title": "Slow input and output of one thread holds up no other", "statement": "While a thread waits for a file, a command, a terminal, a local server, the API server or a scan, the other threads, above all the one that receives from the server, go on.", "quantifier": "every number of threads of each kind, every run of each (with exceptions anywhere), every schedule", "why_tests_cant": "all interleavings of any number of threads", "anchors": ["dataplicity/portforward.py:Connection.on_channel_data", "dataplicity/portforward.py:Connection._flush_buffer", "dataplicity/client.py:Client.sync", "dataplicity/directory_scanner.py:DirectoryScanner._perform_scan", "dataplicity/m2mmanager.py:M2MManager.on_instruction"]}
{"id": "C165", "title": "What is written to the file of a channel is sent on the channel", "statement": "The data written to the object that get_file gives for a channel reach the server on this channel, in order, unchanged and once, whatever happens in between; nothing is sent once the channel is closed, and it does not matter what the standard output of the agent is.", "quantifier": "every history of events, calls by other threads and writes to files of any channels", "why_tests_cant": "all histories and all data", "anchors": ["dataplicity/m2m/wsclient.py:ChannelFile.write", "dataplicity/m2m/wsclient.py:Channel.get_file"]}
{"id": "C166", "title": "Downloads make no symbolic links", "statement": "Whatever the server names as temporary file and as path, every symbolic link that exists after the end of a download was at the same place before it.", "quantifier": "every file system with links, every request, with and without failures of the operating system", "why_tests_cant": "all file systems and requests", "anchors": ["dataplicity/remote_directory.py:RemoteDirectory.copy_download", "dataplicity/remote_directory.py:RemoteDirectory.on_write_remote_file"]}
{"id": "C167", "title": "Write requests without a device path write to the download folder only", "statement": "A write request without a device path, whose id is a plain name, changes no file outside of the remote directory except the one of this name in the download folder: the data are stored there and nowhere else until the download ends.", "quantifier": "every file system with links, every request, with and without failures of the operating system", "why_tests_cant": "all file systems and requests", "anchors": ["dataplicity/remote_directory.py:RemoteDirectory.add_download", "dataplicity/remote_directory.py:RemoteDirectory.on_write_remote_file"]}
{"id": "C168", "title": "Every message that asks for a service is answered", "statement": "A message that asks for an echo service, a terminal, a forwarded or a redirected connection on a channel starts the service on that channel, or sends the reason on that channel and asks the server to close it.", "quantifier": "every history of the agent, every message, every number of services that run already, with and without failures to start a thread", "why_tests_cant": "all histories and messages", "anchors": ["dataplicity/m2mmanager.py:M2MManager.on_instruction", "dataplicity/m2mmanager.py:M2MManager.open_terminal", "dataplicity/portforward.py:PortForwardManager.open_service"]}
{"id": "C169", "title": "What a scan lists for a name determines the name", "statement": "For every name of a file on the disk, UTF-8 or not, the string that is written to the list of a scan reads as the Python string that stands for the name, passing it to the operating system gives the file again, and different names are listed differently.", "quantifier": "every byte string", "why_tests_cant": "all names, among them those with bytes that are no UTF-8", "anchors": ["dataplicity/scan_directory.py:scan_directory", "dataplicity/directory_scanner.py:DirectoryScanner.write_scan"]}
{"id": "C170", "title": "Every file on the list can be asked for", "statement": "For every file that a scan lists there is a path that the server can put into a request to open, read or write this file.", "quantifier": "every name of a file", "why_tests_cant": "all names", "anchors": ["dataplicity/remote_directory.py:RemoteDirectory.on_open_remote_file", "dataplicity/remote_directory.py:RemoteDirectory.copy_download"]}
{"id": "C171", "title": "The file that is sent is the one in the instruction", "statement": "The file that is opened and sent for an instruction to read a file is the one whose path is in the instruction, taken from the root directory on.", "quantifier": "every path, given as a byte string", "why_tests_cant": "all paths", "anchors": ["dataplicity/m2mmanager.py:M2MManager.on_instruction", "dataplicity/m2m/fileservice.py:FileService._run_service"]}
{"id": "C172", "title": "The command that is run is the one in the instruction", "statement": "The command that the shell gets for an instruction to run a command is, byte for byte, the one in the instruction.", "quantifier": "every command, given as a byte string", "why_tests_cant": "all commands", "anchors": ["dataplicity/m2mmanager.py:M2MManager.on_instruction", "dataplicity/m2m/commandservice.py:CommandService._run_service"]}
{"id": "C173", "title": "No copies of files stay behind", "statement": "After an open request has failed, after an upload was closed, and after the connection ended, no copy of the file stays in the temporary directory.", "quantifier": "every history of events and failures of the system", "why_tests_cant": "all histories", "anchors": ["dataplicity/remote_directory.py:RemoteDirectory.add_upload", "dataplicity/remote_directory.py:RemoteDirectory.close_upload", "dataplicity/remote_directory.py:RemoteDirectory.on_open_remote_file", "dataplicity/remote_directory.py:RemoteDirectory.on_write_remote_file", "dataplicity/m2m/wsclient.py:WSClient.on_disconnected"]}
{"id": "C174", "title": "A channel carries one service at a time", "statement": "Two file or command services that the server asked for never use the same channel at the same time.", "quantifier": "every history of instructions, of the service threads and of other events", "why_tests_cant": "all interleavings of threads", "anchors": ["dataplicity/m2mmanager.py:M2MManager.open_file_service", "dataplicity/m2mmanager.py:M2MManager.open_command_service", "dataplicity/m2m/wsclient.py:WSClient.get_channel"]}
{"id": "C175", "title": "open_channels lists open channels", "statement": "The channels in WSClient.open_channels are those that a message or a service named and that neither the server closed nor the end of a connection; after the end of a connection the list is empty and no data is kept.", "quantifier": "every history of the client", "why_tests_cant": "all histories", "anchors": ["dataplicity/m2m/wsclient.py:WSClient.open_channels", "dataplicity/m2m/wsclient.py:WSClient.get_channel", "dataplicity/m2m/wsclient.py:WSClient.on_notify_close", "dataplicity/m2m/wsclient.py:WSClient.hard_close_channels"]}
{"id": "C176", "title": "Storing a download overwrites nothing, also while other programs work", "statement": "When the agent stores a download it takes away or replaces nothing but the temporary file, whatever other programs do to the files at the same time. It succeeds only if it has put the contents of the temporary file somewhere.", "quantifier": "every file system, every behaviour of other programs between the system calls of the agent, every failure of the operating system", "why_tests_cant": "all interleavings with other programs", "anchors": ["dataplicity/remote_directory.py:RemoteDirectory.copy_download"]}
{"id": "C177", "title": "A snapshot is the file as it was at one moment", "statement": "The snapshot of a file that other programs change while it is copied is what the file was at one moment during the copy, and the copy ends.", "quantifier": "every sequence of changes of the file, every size of the pieces", "why_tests_cant": "all interleavings with other programs", "anchors": ["dataplicity/remote_directory.py:RemoteDirectory.add_upload"]}
{"id": "C178", "title": "The disk margin is kept for files that change", "statement": "A snapshot leaves the margin free, also of a file that is changed between the check and the end of the copy.", "quantifier": "every sequence of changes of the file, every disk usage", "why_tests_cant": "all interleavings with other programs", "anchors": ["dataplicity/remote_directory.py:RemoteDirectory.add_upload"]}
{"id": "C179", "title": "Scans end and list only what was there, also while the directories change", "statement": "While other programs change the directories a scan still ends, and everything it lists was given by the operating system during the scan under the path at which it is listed: visible, and within the depth limit.", "quantifier": "every change of the directories between the rounds of the scan, every limit", "why_tests_cant": "all interleavings with other programs", "anchors": ["dataplicity/scan_directory.py:scan_directory"]}
{"id": "C180", "title": "Scans list what stays", "statement": "Every file and directory that is on the device during the whole scan is listed once, whatever else changes meanwhile.", "quantifier": "every change of the directories between the rounds of the scan", "why_tests_cant": "all interleavings with other programs", "anchors": ["dataplicity/scan_directory.py:scan_directory"]}
{"id": "C181", "title": "A file that changes is sent as it was at one moment", "statement": "What the server receives of a file that other programs change while the file service sends it is what the file was at one moment.", "quantifier": "every change of the file between the reads, every failure, every close point", "why_tests_cant": "all interleavings with other programs", "anchors": ["dataplicity/m2m/fileservice.py:FileService._run_service"]}
{"id": "C182", "title": "The file service ends also for files that grow", "statement": "Every run of the file service ends and gives back its slot, also for files that grow and for devices without an end.", "quantifier": "every change of the file between the reads, every failure, every close point", "why_tests_cant": "a never-ending loop cannot be observed by a test", "anchors": ["dataplicity/m2m/fileservice.py:FileService._run_service"]}
{"id": "C183", "title": "The complete message has the exit status of the command", "statement": "The returncode of the complete message of a command is the exit status of its shell, and a command that ends by itself is not killed. The service does not end as long as a process can write to the output, unless the channel is closed or something fails.", "quantifier": "every interleaving of the processes of the command with the thread of the service", "why_tests_cant": "all interleavings with other processes", "anchors": ["dataplicity/m2m/commandservice.py:CommandService._run_service"]}
{"id": "C184", "title": "No process of a command runs on after its service has ended", "statement": "When the command service has ended, because the output ended, the channel was closed or something failed, no process that the command has started runs.", "quantifier": "every interleaving of the processes of the command with the thread of the service", "why_tests_cant": "all interleavings with other processes", "anchors": ["dataplicity/m2m/commandservice.py:CommandService._run_service"]}
{"id": "C185", "title": "The result of a scan that the server gets is that of one scan", "statement": "If what the server gets when it opens the result of a scan can be read as JSON, it lists exactly what one scan found, also while further scans are stored.", "quantifier": "every interleaving of the threads of the scanner with the reads of the copy, every size of the pieces", "why_tests_cant": "all interleavings of the scanner with the receive thread", "anchors": ["dataplicity/remote_directory.py:RemoteDirectory.add_upload", "dataplicity/directory_scanner.py:DirectoryScanner.write_scan"]}
{"id": "C186", "title": "A snapshot leaves the margin to the agent itself", "statement": "If disk usage and the size of the file can be determined, then after a snapshot at least 50,000,000 bytes, but for less than one block, are still available to programs that are not run by root, as the agent.", "quantifier": "every figure of the file system and every size of file", "why_tests_cant": "all figures of file systems", "anchors": ["dataplicity/remote_directory.py:RemoteDirectory.add_upload", "dataplicity/disk_tools.py:disk_usage"]}
{"id": "C187", "title": "Which command lines run a subcommand", "statement": "A subcommand is run exactly if the command line is accepted and names it, and the log level (critical with --quiet) is known and a named log file can be used; the process then ends with status 0 if the subcommand succeeds, and otherwise with a traceback if --debug was given and with status -1 if not. All other command lines end in one way, whatever the subcommands would do.", "quantifier": "every command line, every log file and every outcome of the subcommands", "why_tests_cant": "all command lines", "anchors": ["dataplicity/app.py:App.run", "dataplicity/app.py:App._init_logging", "dataplicity/app.py:main"]}
{"id": "C188", "title": "Instructions to scan", "statement": "An instruction to scan the remote directory starts a scan if none is under way; and the server is told of at most as many results as it has sent scan requests, whatever instructions it gave.", "quantifier": "every state of the agent, every interleaving of messages and threads", "why_tests_cant": "all interleavings", "anchors": ["dataplicity/directory_scanner.py:DirectoryScanner.perform_scan", "dataplicity/m2mmanager.py:M2MManager.on_instruction"]}
{"id": "C189", "title": "The server has the information that the device gives when it is sent", "statement": "Once the client takes the information about the device for sent, the server has what the device said at the sync that the server accepted, in particular its network addresses.", "quantifier": "every history of syncs, of the device and of lost messages", "why_tests_cant": "all histories", "anchors": ["dataplicity/client.py:Client._sync_meta", "dataplicity/device_meta.py:get_meta", "dataplicity/device_meta.py:get_ip_address_list"]}
{"id": "C190", "title": "The server has disk figures of the last hour", "statement": "After every poll at which the server can be reached, the server has disk figures that are less than an hour old.", "quantifier": "every history of polls, of the clock and of the network", "why_tests_cant": "all histories", "anchors": ["dataplicity/client.py:Client.disk_poll", "dataplicity/client.py:Client.poll"]}
{"id": "C191", "title": "Changes of the clock restart the agent", "statement": "The process is killed at the end of the check during which the clock of the device is set by more than 180 seconds, forward or back, and at no other time.", "quantifier": "every sequence of changes of the clock and of checks", "why_tests_cant": "all sequences", "anchors": ["dataplicity/clockcheck.py:ClockCheckThread.run", "dataplicity/clockcheck.py:ClockCheckThread.on_fail"]}
{"id": "C192", "title": "A terminal process has 15 seconds to exit after the hang-up", "statement": "A terminal process that does not exit after the hang-up signal gets the kill signal at the first look of the waiting thread after 15 seconds have passed, and not sooner, whatever the clock of the device shows.", "quantifier": "every sequence of looks, exits and changes of the clock", "why_tests_cant": "all sequences", "anchors": ["dataplicity/m2m/remoteprocess.py:PidWaitThread.run"]}
{"id": "C193", "title": "Write requests can be sent again", "statement": "A write request that the server sends again, because it got no answer to the first one, is answered as the first one was and changes no file any more.", "quantifier": "every state of the file system, every chunk, path and settings", "why_tests_cant": "the failure needs a lost answer after the file was stored", "anchors": ["dataplicity/remote_directory.py:RemoteDirectory.on_write_remote_file", "dataplicity/remote_directory.py:RemoteDirectory.add_download", "dataplicity/remote_directory.py:RemoteDirectory.copy_download"]}
{"id": "C194", "title": "Requests to open, read and close a file can be sent again", "statement": "A request to open, read or close a file of the remote directory that the server sends again, because it got no answer to the first one, is answered as the first one was, and what can be read of the file afterwards stays the same.", "quantifier": "every state of the file system, every path, upload id, offset and size, and every behaviour of the disk", "why_tests_cant": "the failures need a disk that is nearly full or a file that changes between the two requests", "anchors": ["dataplicity/remote_directory.py:RemoteDirectory.on_open_remote_file", "dataplicity/remote_directory.py:RemoteDirectory.on_read_remote_file", "dataplicity/remote_directory.py:RemoteDirectory.on_close_remote_file", "dataplicity/remote_directory.py:RemoteDirectory.add_upload"]}
