# Formal model of dataplicity-agent in Lean 4

Source: `/repo` (wildfoundry/dataplicity-agent, pinned commit), read as text; nothing was run.  Python 3 semantics are modelled (the code
also supports Python 2; branches for Python 2 are not modelled).

## Layout

    lean/Verif/Py/      Python primitives used by the code: bytes, text, UTF-8, int(), JSON values, posixpath, a file system (those that
                        specifications share with the model are characterised on their own: Props/Library, Props/Grammar, C81, C82)
    lean/Verif/Model/   the model, one file per source file or group of files; every definition cites file and lines
    lean/Verif/Spec/    small specifications, written without the model's helpers
    lean/Verif/Proofs/  lemmas
    lean/Verif/Props/   the property theorems (C01 ...), each with concrete cases (`example`) beside it
    properties.jsonl    the properties in English (written by tools/gen_properties.py)
    MANIFEST.json       property -> theorems and status (written by tools/gen_manifest.py from tools/claims.txt)
    AXIOMS.md           axioms of each property theorem (written by tools/gen_axioms.py)
    seeded/LOG.jsonl    mutation log (written by tools/mutate.py)

To review a property: read its line in properties.jsonl, its theorems in Props, the definitions they name in Spec, and the state and
`step` of the model.  The lemmas in Proofs need not be read.

## Conventions

* Bytes are `List UInt8`, text is `List Char` (so surrogate code points, which Python text can hold, are left out, except in `Model/Names.lean`), integers are
  `Int`/`Nat`, unbounded as in Python.
* Exceptions are values.  Code that runs against an environment (sockets, pipes, files, clock, server, children) takes the environment's
  answers as inputs, and the theorems quantify over all of them.
* Threads: a critical section under a lock is one atomic step; shared accesses outside locks are separate steps; a schedule is
  an arbitrary list of steps, and theorems quantify over all schedules.  A step that a thread cannot take is skipped.
* `while 1` loops that may not end are modelled with fuel, or as a step function over a list of inputs; "does not end" is stated as: for
  every amount of fuel, or every number of steps, it is still running.
* Where the code violates a property, the negation is proved with a concrete witness (`..._counterexample`, `..._false`) and the part that
  holds has the suffix `_partial`.  The statement in properties.jsonl stays at full strength.

## Trusted base

* The kernel of Lean 4.33.0.  No axioms besides `propext`, `Classical.choice`, `Quot.sound`; the table for each theorem is in AXIOMS.md.
  No `sorry`, `native_decide`, `bv_decide`.  Mathlib is not used.
* The reading of the Python source: the model is written by hand; nothing mechanical ties it to `/repo`.
* The behaviour assumed of what is outside of the repository (Python runtime and standard library, lomond, the kernel's files, pipes,
  sockets, ptys, the servers).  It is stated in the comments of the definitions that use it, and most of it is left open as inputs.
* The English statements in properties.jsonl and their translation in Spec and Props.

## What is modelled

* `m2m/bencode.py` (Model/Bencode): all of it, with `PyVal` for bytes, text, int, bool, float, None, list, tuple, dict.
  Values are encoded before the items of a dict are sorted, so only the order of two exceptions could differ.
  Model/Bencode leaves the recursion limit and the limit of digits of int() in recent Pythons out; Model/Limits is the same code with both
  limits, and C136 and C137 say how the two are related (calls of built-in functions are not counted).  Not modelled: memory.  `python -O` would drop the final assert of encode.  Spec/Grammar is a grammar of all inputs: those that
  `decode` reads, those that it refuses (with the exception), and those on which it does not end (C130).
* `m2m/packetbase.py`, `m2m/packets.py` (Model/Packets): the class table as data, registration, `create`, `from_bytes`, `as_bytes`, `repr`.
* `m2m/dispatcher.py`, `m2m/wsclient.py` (Model/Dispatcher, Registration, Channel, WSClient): channels with their buffers and callbacks; the client as a
  state machine over websocket events and calls of other threads; the end of the receive thread (`run`).
  Model/BlockingRead has threads that wait in `Channel.read`.  Model/ChannelFile has `get_file` and the writes to it.
  Not modelled: lomond (framing, TLS, `persist` and its waiting times), `last_packet_time`, the hooks; text messages are
  logged only.
* `limiter.py` (Model/Limiter) with any number of services sharing a limiter.
* `m2m/fileservice.py`, `m2m/commandservice.py`, `m2m/echoservice.py` and the launchers (Model/Services).
  Model/FileChanging has the loop of the file service over a file that changes between the reads.  Model/CommandProcess has the processes of
  a command (running, holding the output, exit status) beside the thread of the service; process groups and failures of `kill` are left out.
* Model/Opening leads from the message with an instruction to an echo service, a forwarded connection or a terminal, for one message at a time (which
  thread starts, which callbacks the channel gets, or which refusal is sent).  Other services of the agent appear as calls of the client by other threads.
  Channel numbers and device ports that are not numbers are left out there.
* Model/Slots has the two limiters and, of every thread that holds a slot, only its kind and its end, for all messages (also with channels that are not
  numbers and routes that are not lists).
* Model/Agent puts the client, the instructions, the limiter and any number of file and command services together.  Of a command service only the calls
  of its channel are there (they come from Model/Services).  A refused launch is modelled as a service without a slot that makes two calls; in the code
  the receive thread makes them, so that there are fewer schedules.
* `portforward.py` (Model/PortForward): the buffer shared by the receive and the forwarding thread; the forwarding threads with their
  shared close event, where the test of the event and the rest of an iteration are separate steps; the table of services.
* `m2m/proxy.py`, `m2m/remoteprocess.py`, `Terminal` (Model/Terminal; the splitting of the command, `shlex.split`, in Model/Shlex).  `close` of a process is called by the receive thread only: the
  other caller, `Terminal.close`, is never called in the agent.  `waitpid` failing with ChildProcessError in the wait thread and the
  failure of `exec` in the child are left out.
  Model/Signals has in addition the processes of the operating system, which may give the number of a collected process again; children of terminals are
  collected by `PidWaitThread` only.
* `remote_directory.py` (Model/RemoteDirectory) over a file system without links (Py/FS); permissions and full disks are inputs.
  A directory that the server names as device path is moved with its contents.  No other program changes the files between two calls
  inside one handler.  Model/Links has uploads, the scan file and the end of a download over a file system with symbolic links; without
  links the uploads agree with Model/RemoteDirectory (C125).  Links are followed as Linux does, at most 40 in one path.
  Model/Interference has the system calls of `copy_download` and the copy of `add_upload` one by one, with other programs in between; if nobody else does
  anything it agrees with Model/RemoteDirectory (`c176_agrees`, `c178_agrees`).
* `scan_directory.py` (Model/Scan) over a directory graph that does not change during the scan, behind the check that the root is a
  directory.  Model/ScanChanging has the same rounds over directories that change from round to round; listings that never end are left out.  Model/ScanCopy puts the threads of the scanner
  between the pieces of the copy that the receive thread makes of their file.  `directory_scanner.py` (Model/DirectoryScanner): all schedules of requests and scan threads; the outcome of a scan
  is an input; the file is written in pieces of any size; being killed means to stay in the state reached.
  Model/ScanWire puts it together with the client and the remote directory; there a thread that has the scan file open writes at the end
  of whatever lies at its place, which differs from a file descriptor only if another program replaces the file meanwhile.
  Model/ScanJson is the content of the file, as JSON text.
  Model/Reports is the content of the control messages of file and command services, as JSON text.
* `json.dumps` and `json.loads` of the standard library (Model/JsonText), with default arguments; floats are known by their literals only, lone
  surrogates, the limit for the digits of integers and the recursion limit are left out.
* `jsonrpc.py` (Model/JsonRpc): the server's reply is an input (any JSON value, or text that is not JSON, or no connection);
  `new_call_id` also step by step with any number of threads.  Model/RpcBytes has the bytes of requests and replies, over JSON as text.
* `client.py` (Model/Client): times in microseconds, without rounding of floats; the three parts of a poll and the syncs are events.
  Spec/Server is the other side for C117-C119: a server that follows JSON-RPC 2.0 (Spec/JsonRpcWire) and stores, for each procedure, the
  parameters of the last call that it answers with a result.  Each message gets an answer, is lost before it reaches the server, or its
  reply is lost.  Model/ClientServer puts the polls and the announcements together, one after the other.
* `tags.py`, `rpi.py`, `iptool.py`, `device_meta.py`, `disk_tools.py`, `clockcheck.py`, `constants.py` (Model/Device): `int()` of text is a
  parameter; rounding of floats is any order preserving rounding that keeps 0, 1 and 100.
  Model/ClockChange has the thread of clockcheck.py together with the clock that it reads; Model/DiskMargin has the blocks that are reserved for root;
  Model/MetaSync has the syncs of the client with what `get_meta` keeps.
* `m2mmanager.py` (Model/Instructions, WSClient, Terminal): instructions from the bytes of the message to the operations; the order of the
  steps in which the agent starts.
* Client and service together (Model/System): the file service, the echo service, a forwarded connection, and any thread that makes a
  given sequence of calls, each step by step, with the whole client of Model/WSClient; what the server sees is got by decoding the
  messages sent.  In C101 to C107, C109 and C110 the server is taken to receive what is given to the websocket; C108 has connections
  that lose messages.  `Sized` in the theorems says that no
  message is longer than a Python byte string can be (2^63 - 1).
* Client and remote directory together (Model/RemoteFiles): messages of the server go through the client to the handlers, which run
  inside of the receive thread, and what these send is encoded; other programs change files between.
* Terminals in more detail (Model/TermControl): control messages as JSON values, sizes of any shape, file descriptors and their reuse;
  client and terminal together (Model/TermWire).  `os.write` to the terminal is one step there, however long it takes.
* Scans of a file system with links (Model/ScanFs): the graph of directories that Model/Scan takes as given is got from the file system of
  Model/Links.  The file system does not change during a scan.  `scanOld` is the same with the replacement for `os.scandir`
  (scan_directory.py:24-54).
* Names of files that are not UTF-8 (Model/Names): Python strings with surrogates, `os.fsdecode` and `os.fsencode` with `surrogateescape`, such
  strings in `json.dumps`.  Elsewhere all names are UTF-8.
* The end of the agent (Model/Exit): `run_forever`, `Client.exit`, `Client.close` and the clock thread as two threads whose steps come in any
  order, `M2MManager.on_client_close`.  A poll and a sleep are one step each, taken to come to their end at some time.
* All locks (Model/Locks): each function by the locks it takes, in which order, and the input and output under them; any number of threads, any
  schedule.  The locks of lomond (websocket) and of `logging` are assumed to be held by one thread at a time; `Thread.start` is assumed to need no
  lock of the agent.
* `app.py`, `subcommand.py`, `subcommands/` (Model/App): log levels, exit status, serial and token; the command line (Model/CommandLine: `argparse` of
  Python 3.11 for this parser, checked against Python's on random lines; Spec/CommandLine is a grammar of the lines).  Not modelled: what is printed for
  `--help`, `--version` and errors;
  `str.upper` is a parameter.

Not modelled at all: log output (other than the `repr` of packets, for C13), `compat.py` apart from the functions used, `_version.py`,
`setup.py`, `__repr__` of other objects, Python 2.

## Status of the properties

| | property | status | what is proved, what is missing |
|---|---|---|---|
| C01 | Bencode round trip | proved |  |
| C02 | Bencode is canonical and unambiguous | proved |  |
| C03 | Bencode is self-delimiting | proved |  |
| C04 | Encode succeeds exactly on supported values | proved | bools are refused by the final assert's decode |
| C05 | Decode terminates on every input | partial | false of the code: a string length without ':' makes decode spin at end of input; exact set of such inputs proved |
| C06 | Truncated messages are not accepted as complete | proved | a cut top-level byte string is accepted (outside the claim, shown) |
| C07 | Decoded values are clean | proved |  |
| C08 | Packet round trip | proved |  |
| C09 | Only well-typed packets come out of from_bytes | proved |  |
| C10 | Malformed packets are reported as packet errors | partial | false of the code: IndexError, ValueError, TypeError, OverflowError escape and one class of inputs hangs; exact set of escaping inputs proved |
| C11 | Packet construction is checked and position/keyword agnostic | proved |  |
| C12 | Packet numbers are unambiguous | proved |  |
| C13 | Passwords never reach the log | proved | the Python type of a wrong password value is shown |
| C14 | Incoming messages reach exactly the right handler | partial | as stated false: a byte string whose bytes read as integers is dispatched like a list; exact condition proved, and the statement as written for all messages that decode to a list |
| C15 | No message stops the receive loop | partial | false for messages on which the decoder hangs (C05); proved for all histories without them |
| C16 | Pings are answered | proved | for histories in which no message makes the decoder hang (C05) |
| C17 | Unknown messages have no effect | proved | for messages on which the decoder ends (C05) |
| C18 | A stale identity is never reused after a disconnect | proved |  |
| C19 | The API server is told the current identity until it acknowledges it | proved |  |
| C20 | A closed client announces nothing | partial | false exactly when close() runs between the check and the assignment in handle_set_identity; proved when the handler does not overlap close() |
| C21 | Command callbacks fire once | partial | false of the code: callbacks stay registered after a disconnect; the exact calls are proved for every history |
| C22 | A channel without a callback is a lossless byte stream | proved |  |
| C23 | Channel reads are bounded and complete | proved |  |
| C24 | A closed channel is silent | partial | the close notification and the callbacks are proved; "nothing is sent after close" is false of the code (check-then-send race), proved for calls that begin after the close |
| C25 | Data that arrived before a service attached reaches the service | partial | false of the code: data buffered before the callback was set is never delivered to it |
| C26 | A newly opened channel delivers data | partial | false of the code: channels closed by a disconnect stay in the table; proved exactly for the numbers without a closed channel in the table (c26_delivers_partial, c26_lost) |
| C27 | Channels are independent | proved |  |
| C28 | A closed channel number can be used afresh | proved |  |
| C29 | The service limit is never exceeded | proved | all schedules of any number of attempts |
| C30 | Slots are released exactly once | proved | counter equals admitted minus gone; decrement never raises |
| C31 | A refused service is reported and the channel closed | proved | all five launchers |
| C32 | File contents arrive intact | proved | all contents, failures and close points |
| C33 | A file transfer always ends with a close | partial | false when the path in the instruction is not a string: the channel is then never closed (c33_counterexample); proved for all string paths |
| C34 | Command output is forwarded intact | proved | all poll results, reads and close points |
| C35 | A finished command is reported and its channel closed | partial | false when the child process can not be created: no complete message and no close (c35_counterexample); proved otherwise |
| C36 | The command service ends when the command ends | partial | false on Linux, where a drained pipe reports POLLHUP without POLLIN: the loop then runs for ever; proved when the end of the output is reported as readable, or the channel closes, or poll raises; c36_iff says exactly when it ends |
| C37 | Echo | proved | all message sequences from the server |
| C38 | Data for a local service arrives intact whenever the connection gets established | proved | all interleavings of the receive thread with the two steps of connecting |
| C39 | The local service never sees a stream with a hole | partial | false: the buffer is dropped when sendall raises, and later data is still sent; proved when a failed connection accepts nothing more |
| C40 | Data from a local service is forwarded intact | proved | all schedules of all threads |
| C41 | Forwarded connections are isolated | partial | false: one close event is shared by all connections and never cleared; proved for schedules in which no thread has seen an error (c41_event_iff says exactly when) |
| C42 | A local hang-up closes the channel | partial | false: an empty read only leaves the inner loop, the thread polls for ever; proved for a closed channel, a failing poll and error events that are not readable |
| C43 | A forwarding thread always closes its channel and releases its slot | partial | false when no time has elapsed on the clock (division by zero in the finally clause); proved otherwise; the slot is released in all cases |
| C44 | Service lookup is consistent | partial | by name proved; by port false when a name is added again for another port, proved otherwise, in particular for the services of the agent; c44_by_port_iff says exactly when |
| C45 | Opening a service connects to the requested address only | proved | all tables and requests |
| C46 | Keyboard input reaches the terminal process completely | partial | proved for messages that arrive while the terminal runs; messages that arrive before the process is started are lost and the channel is closed |
| C47 | Closing a terminal signals its process once and escalates once | proved | close is modelled as called by the receive thread only, its only caller in the agent |
| C48 | A closed terminal leaves no process behind | partial | false for a close before the process id is stored, proved otherwise |
| C49 | Window sizes are applied as requested | partial | proved for sizes from 0 to 32767 and calls that do not overlap; false for larger sizes and for a request that overlaps with the start |
| C50 | Terminal output is forwarded intact and its end is signalled | partial | forwarding proved; the close of the channel is never requested |
| C51 | Terminals run with the configured user and group only | partial | proved for accounts that exist; with an unknown user or group the command runs as the agent |
| C52 | Files outside the remote directory are not served | proved | by the text of the path; symbolic links are the subject of C125 |
| C53 | Snapshots stay in the snapshot folder | partial | proved for relative ids without ..; false for absolute ids and ids that go up, which the agent does not reject |
| C54 | Snapshots are isolated | partial | proved for relative ids that do not go up; two other ids may name the same snapshot |
| C55 | Piecewise reads reassemble the file | proved |  |
| C56 | Snapshots respect the disk margin | partial | false if the size of the file cannot be determined: there is no check then; c56_iff says exactly when a request is refused |
| C57 | Every remote file request gets exactly one reply | partial | false for write requests whose device path is not UTF-8, proved otherwise; exactly these get no answer |
| C58 | Chunked downloads are assembled correctly | proved | if the server names a directory as device path there is nothing to assemble; see c58_directory, C59 and C60 |
| C59 | Downloads never overwrite existing files | proved | no other program creates the file between the check and the rename; c59_kept also covers directories named as device path; c59_names spells the names out |
| C60 | Downloads stay in the remote directory | partial | proved for tame ids, device paths of files in the download folder and paths without ..; the agent checks none of these |
| C61 | A failed chunk leaves no partial download and is reported | proved |  |
| C62 | Scans omit hidden entries and respect the depth limit | proved | the directories do not change during a scan |
| C63 | Scans terminate and visit each directory once | partial | a scan with a depth limit always ends; without one it ends if inodes can be read; directories are listed once only below the root and only where entries have the inode of their directory, which is false for symbolic links and for links to the root |
| C64 | Scans are complete | proved | the directories do not change during a scan |
| C65 | Every scan request gets a result message | partial | false for requests made during a scan and for scans that fail: these are never answered |
| C66 | Scans never run concurrently | proved |  |
| C67 | The scan result file is never half written | partial | false while the file is written and after a failed write |
| C68 | An RPC call returns only its own result | proved | the id may also be a float of the same value |
| C69 | RPC errors are classified by code | partial | false for errors that are not an object and for codes that are a list or a dict; proved otherwise; exactly these raise something else |
| C70 | Call ids are fresh | partial | false for two threads inside new_call_id at once (there is no lock); proved for calls that do not overlap |
| C71 | Ids within a batch are unique | partial | false if a number is supplied that the client gives out itself; holds for text ids, the only ones used by the agent; c71_unique_iff says exactly when |
| C72 | A batch is sent exactly when its block succeeds | proved |  |
| C73 | Batch results belong to their calls | proved |  |
| C74 | Bad server replies raise documented errors only | partial | false for replies that are JSON but not an object, and for errors that are not an object with a scalar code |
| C75 | Polling never fails | proved | exceptions that end the process (SystemExit, KeyboardInterrupt) excepted |
| C76 | Disk usage is reported at most hourly | partial | the distance holds always; the first poll does not report if the clock was set back since the start; c76_first_iff says exactly when it reports |
| C77 | Tags are sent when they changed, until acknowledged | proved |  |
| C78 | Device information is sent until acknowledged, then never again | proved | where the device information can not be got only the authentication is sent |
| C79 | An identity counts as announced only if the server accepted it | proved |  |
| C80 | Device information can not be corrupted by a caller | partial | false: the first caller is given the kept dict itself, and all callers share the list of addresses |
| C81 | Tags are well formed | proved |  |
| C82 | The machine revision is the first revision entry | partial | false for a value that is not UTF-8: an exception; c82_error_iff says exactly when |
| C83 | Interface addresses are extracted faithfully | partial | false for interface names with bytes above 127, which are replaced |
| C84 | Limits from the environment are usable | partial | false for zero and negative numbers: the agent does not start exactly then |
| C85 | Disk figures are consistent | proved | float rounding is any order preserving rounding that keeps 0, 1 and 100 |
| C86 | The clock guard restarts exactly on big jumps | proved |  |
| C87 | Instructions do what they name and nothing else | partial | false for a message with a key that is not a byte string: decoding it raises; c87_done_iff: only then |
| C88 | Feature flags are appended once | partial | false that the names are always contained: an address with a query is used as it is; the rest is proved; c88_names_iff says exactly when they are |
| C89 | Encoding follows the bencode format | proved |  |
| C90 | A channel sees exactly its own traffic | proved |  |
| C91 | Requests of the server reach their handler exactly once | proved |  |
| C92 | Terminals keep track of their live processes | proved |  |
| C93 | Downloads for a missing directory are refused | proved | for downloads of files; a directory named as device path is not a download, shutil.move makes the missing directories for it |
| C94 | An identity is announced until it is accepted | proved |  |
| C95 | Device information can always be got | partial | false if the revision or the model name is not UTF-8, and only then |
| C96 | Instructions are served from the first moment | partial | false while the agent starts: the terminal and the port forward manager are added after the connection is started |
| C97 | A client has the serial and token it was given | partial | false for a file that holds only white space; c97_empty_iff says exactly when a setting is empty |
| C98 | The exit status tells how the command ended | proved | exceptions that are not an Exception (SystemExit, KeyboardInterrupt other than those of the code) are not modelled |
| C99 | The log level is the one named | partial | false for invalid names: the handler is for IndexError, a dict raises KeyError; c99_exact says exactly which level is set |
| C100 | The end of the connection closes every channel | partial | proved for the loss of the connection; false when the thread ends by an exception or on exit: run calls self.on_close, which does not exist |
| C101 | The server receives exactly what was sent on a channel | proved | messages larger than a Python byte string can be are excluded |
| C102 | A requested file arrives at the server | proved | the client is the whole of Model/WSClient; that the thread is scheduled is not modelled, only that it needs boundedly many statements |
| C103 | Nothing of an old service is sent under its number after its channel was closed | partial | false for a call that has passed the test of is_closed when the channel ends: its message is sent, also to a new channel of the same number |
| C104 | Every message of the client is a well-formed packet | proved | messages larger than a Python byte string can be are excluded |
| C105 | An echo service returns every message once, in order | proved | no message that makes the decoder hang (C05), no loss of the connection, channel not closed |
| C106 | Decoding does not amplify | proved | measured in objects, bytes and digits |
| C107 | A forwarded connection carries both directions unchanged | proved | as C105; failing local sockets are in C39 |
| C108 | What the server receives on a channel has no gaps | partial | false for a call that spans the loss of the connection and the new connection; partial: nobody is inside of a method of the channel when the client learns of the loss; in general what arrives is a beginning and then at most as many messages as there are such calls (c108_few), in order (c108_order) |
| C109 | The calls of a service thread take effect in order | proved | reaching the server means given to the websocket, for lost connections see C108 |
| C110 | The output of a command arrives at the server | proved | the service finds the channel open whenever it looks; that the service comes to its end is C35 |
| C111 | A file that the server reads over the connection is the file at the time of opening | proved | for relative ids that do not go up (C53, C54); reads must be for offsets and sizes that can exist, and the operating system must carry them out |
| C112 | A file that the server sends over the connection is stored if all chunks are acknowledged | proved | soundness of the acknowledgements; when a chunk is acknowledged is C58 |
| C113 | Only well-formed resize requests change a terminal | partial | proved for a running terminal; false before the start: a malformed size is stored and ends the thread of the terminal when the process is started; partial: all requests are well formed |
| C114 | Terminal input is written to the terminal only | partial | false when the descriptor is closed and its number reused while input is written, or between the closing and the assignment of None; partial: no input is being written at that time; c114_iff says exactly when |
| C115 | A terminal carries both directions unchanged | proved | for a terminal that runs, with os.write making progress; what happens before the start is C46, sizes and closes are C49 and C50 |
| C116 | Calls on a server that follows JSON-RPC 2.0 give what the procedure gives | partial | false for a batch of notifications only: there is no response, and a ValueError is raised although they were sent; partial: at least one call in the batch, ids that are texts |
| C117 | The server has the tags that the client takes for acknowledged | partial | false after a lost reply: tags that go back to the acknowledged ones are not sent, the server keeps those between; partial: no reply to tags is lost |
| C118 | The server has the information about the device that the client takes for sent | proved | for a server that follows the specification and stores what it answers with a result |
| C119 | The server has the identity that the manager takes for announced | proved | as C118 |
| C120 | A server that was told of a scan reads its result | partial | false if a second scan was asked for before: it may have emptied the file when the server opens it; partial: the server has received a result for each scan request, gave no instruction to scan, and nobody else changes the file |
| C121 | A blocking read of a channel waits only for data | partial | waiting and the stream are proved; false with two threads, one of which may return nothing, and on a close, which does not end the waiting; partial: nobody else reads during the call, no empty messages |
| C122 | A file that the server asks for arrives on the channel it named | proved | from the bytes of the message to the decoded messages on the channel; builds on C87, C102 and C109 |
| C123 | The output of a command that the server asks for arrives on the channel it named | proved | the same for commands, with C110 |
| C124 | Services never use more slots than there are, and give them back | proved | the limiter with the actual services |
| C125 | Files outside the remote directory are not served, symbolic links included | partial | false: a link in the remote directory that leads out is followed; partial: all links inside lead to places inside, and the snapshot folder exists |
| C126 | The agent's temporary files do not lead it to other files | partial | closing is proved; opening, reading and scanning stay in the folder exactly if there is no link with the name in it (c126_upload_iff, c126_read_iff, c126_scan_iff) |
| C127 | A download is stored inside the remote directory, symbolic links included | partial | false: a link to a directory outside is followed; partial: all links inside lead to places inside; a temporary file given by the server that is a directory is not modelled |
| C128 | A file of the remote directory can be fetched when nothing goes wrong | proved | the progress side of C111; ids and path components are plain names without NUL |
| C129 | A file sent by the server arrives when nothing goes wrong | proved | the progress side of C112; ids and path components are plain names without NUL; the remote directory and the temporary file do not contain each other |
| C130 | The language that decode accepts | proved | the recursion limit and the limit of digits of the interpreter are in C136 |
| C131 | The exit of a terminal process is collected | proved | a failing waitpid or kill call (the thread ends) is not modelled |
| C132 | An echo service that the server asks for sends back what the server sends to the channel it named | proved |  |
| C133 | A connection that the server asks for goes to the port it named and uses the channel it named | proved | the connection to the local port, its losses and the poll loop are in C38-C43 |
| C134 | A terminal that the server asks for gets the input that the server sends afterwards | partial | false for data that is handled before the process has been started; proved if there is none |
| C135 | Data for a terminal that does not run is refused message by message | proved |  |
| C136 | Limits of the interpreter only make messages be refused | proved | the limits are counted in calls of Python functions below the caller of bencode |
| C137 | With limits of the interpreter, values are encoded correctly or not at all | proved |  |
| C138 | A requested exit ends the agent | proved | for every interleaving; a poll and a sleep are taken to come to their end; an interrupt during the clean-up leaves run_forever at once (the clock thread may then still run) |
| C139 | The end of the agent closes its terminals | partial | false: Client.close does nothing and nothing calls M2MManager.on_client_close, so that the processes of terminals are neither signalled nor waited for; on_client_close itself closes each process exactly once |
| C140 | Every file in a scan can be fetched as listed | proved | file systems with links; the file system does not change between scan and request; the snapshot folder exists and does not lead to the file itself |
| C141 | A scan lists only what lies in the remote directory | partial | false: links that lead out are followed, names and sizes of files outside are listed; proved if every link in the remote directory leads to a place inside |
| C142 | A scan of a directory without links lists exactly its visible files and directories | proved | the file system does not change during the scan; there are only files, directories and links |
| C143 | The log shows at most the first 32 bytes of the data in a packet | proved | for every function in the place of repr |
| C144 | The local service is told the end of the stream when the server closes the channel | partial | false: a close that comes before the local connection is made, or whose flush raises, is not passed on; proved if the connection was made and the socket accepts data; what is shut down was always complete |
| C145 | Slots of terminals and of other services are counted apart, and given to every request that starts a thread | proved | from the bytes of the messages; when the threads end is left open (C30, C50, C124) |
| C146 | A scan loses nothing that can be reached | partial | proved for scans without a limit and for results without a directory at the last level, where all inode numbers can be got and tell directories apart; false with the limit of the agent: what was first met at the last level through a link is not looked at again (c146_lost_false, c146_agent_false); and an ordinary directory may be listed under a link only (c146_own_path_false) |
| C147 | Pythons without os.scandir list each directory once, and the same result where there are no links | partial | proved for all paths other than that of the root; the root is listed again under a link to it (c147_root_false); for the second part the operating system answers every call and inode numbers are distinct |
| C148 | The handler of a packet is the last public method that is marked for it | proved | for any object; that the seventeen methods of WSClient are its only marked ones is read off wsclient.py:373-497 |
| C149 | A packet may be given by its name as well as by its number | proved | Python 3: bytes never name a member of an enumeration |
| C150 | A terminal executes the program and the arguments that its command names | proved | shlex.split of the standard library is modelled character by character |
| C151 | What the agent writes as JSON is JSON and stands for what was written; what it reads is read as JSON says | proved | json of the standard library is modelled character by character; that Python reads the literal of a float as this float is a hypothesis (on the floats in the value); strings with lone surrogates are left out |
| C152 | A remote call gives what the server answered, whatever the spelling of the answer | proved | for batches with at least one call that is not a notification; that Python reads the literal of a float as this float is a hypothesis (on the floats in the parameters); strings with lone surrogates are left out |
| C153 | Whoever reads the file of a scan as JSON finds exactly what the scan found | proved | c153_server in the circumstances of C120 (no scan under way, the scan file not written to by others); that Python reads the literal of a float as this float is a hypothesis on the time of the scan; names that are no valid UTF-8 are left out |
| C154 | The control messages of file and command services are JSON that says what happened | proved | c154_command for a command whose process could be started and whose thread ran to its end; under the hypotheses of C122, C123 on the connection and the channel number |
| C155 | A result of a scan that is not complete is never read as one | proved | c155_server if the scan file is not written to by others; the copy for the server is one step there, C185 has it in pieces; that Python reads the literal of a float as this float is a hypothesis on the times of the scans; c155_file leaves out the file that was there when the agent started |
| C156 | Signals of a terminal reach its own process only | partial | false if two threads are in close of the same terminal at the same time; proved otherwise, in particular in the agent, where only the receive thread closes terminals (c156_receive_thread); children of terminals are collected by PidWaitThread only |
| C157 | Whoever attached itself to a channel before its end is told of the end | partial | false if a second service is asked for on the same channel: its callbacks replace those of the first, which is never told; proved otherwise, with exactly who is told (c157_exact) |
| C158 | What the client takes for acknowledged is what a server has that reads the bytes of its requests | proved | C117-C119 with the bytes of requests and responses; headers of HTTP are left out |
| C159 | A server can mirror the remote directory from what it reads in a scan | proved | C140, C142 and C153 together: the file system does not change from the scan to the requests, the operating system does what it is asked, and the snapshot folder exists and does not lead to the file itself; names are valid UTF-8; that Python reads the literal of a float as this float is a hypothesis on the time of the scan |
| C160 | Which command lines the agent accepts, and what they mean | proved | argparse of Python 3.11, as far as this parser uses it; which characters are decimal digits (for negative numbers) is a parameter of which it is only assumed that the point, the line feed and the dash are none |
| C161 | The serial and the token given on the command line are used | partial | false for values that begin with a dash and stand in a string of their own (unless they can be no option and are numbers or have a space), which are refused, and for empty ones, for which the files are read (C97); proved for --serial=... and --auth=..., and exactly when the other spelling works (c161_iff) |
| C162 | The command suggested after a failure shows the traceback | partial | the arguments are joined with spaces and not quoted: the printed line has the same words (as shlex.split reads them) exactly if no argument is empty or has white space, quotes or backslashes (c162_text_iff); other characters that are special to a shell are left out |
| C163 | Threads never wait for each other in a circle | proved | functions are modelled by the locks they take and the input and output under them; the locks of lomond and of logging are taken to be held by one thread at a time and to be given back; a send or a log message that never returns is not a circle |
| C164 | Slow input and output of one thread holds up no other | partial | true for files, commands and terminals (nobody is held up) and for scans (only other scans); false for the socket of a connection and for requests to the API server, for which the receive thread can wait (c164_false, c164_sync_false); who can wait for them is in c164_connection and c164_http |
| C165 | What is written to the file of a channel is sent on the channel | partial | false after the close: the data are sent, also to a new channel of the same number; false if the standard output raises: nothing is sent; c165_exact says exactly what is sent; nothing in the agent calls get_file |
| C166 | Downloads make no symbolic links | partial | false if the server names a link as temporary file: it is moved or copied into the remote directory; with /proc/self/root the server gets a link to the root of the file system and can then read any file; proved otherwise; c166_iff says exactly when; temporary files that are directories are not modelled |
| C167 | Write requests without a device path write to the download folder only | partial | false if someone has put a link of this name in the download folder (a fixed path in /var/tmp, which a local user may have made before the agent): the agent writes to the file to which it leads; c167_iff says exactly when; the final move under the conditions of C127; the folder is assumed to exist; temporary files that are directories are not modelled |
| C168 | Every message that asks for a service is answered | partial | false for names of terminals and local services that the agent does not have: nothing is done and nothing is sent, the channel stays open; c168_iff says that these are the only cases |
| C169 | What a scan lists for a name determines the name | proved | the file system encoding is UTF-8 with surrogateescape; stated for the string inside the quotes, the structure around it is that of C151 and C153 |
| C170 | Every file on the list can be asked for | partial | false for every name that is not UTF-8: requests decode the path strictly, so no request names the file |
| C171 | The file that is sent is the one in the instruction | partial | false for every path that is not UTF-8: the bytes that are no UTF-8 are left out, and the file with the shorter path is opened and sent |
| C172 | The command that is run is the one in the instruction | partial | false for every command that is not UTF-8: the bytes that are no UTF-8 are left out, and the shorter command is run |
| C173 | No copies of files stay behind | partial | holds after a close; false when the connection ends (the copy stays until a request or another program names it) and when the system fails while the copy is written (the beginning of the file stays) |
| C174 | A channel carries one service at a time | partial | false: the agent starts a service on a channel whether or not another one uses it, the data of both is mixed, and the end of one cuts off the other; proved if the server asks for services on a channel one after the other |
| C175 | open_channels lists open channels | partial | false after the end of a connection: the channels stay in the list, closed, with their data, until the server closes their numbers (c175_iff, exactly these) |
| C176 | Storing a download overwrites nothing, also while other programs work | partial | false: what is made after the agent has found a name free is replaced; proved if others make nothing new meanwhile; only what was made after the search can be overwritten (c176_new), for names that do not go up |
| C177 | A snapshot is the file as it was at one moment | partial | false for files that are written over during the copy; proved for files that are not changed and for files that are only appended to, where the copy may not end |
| C178 | The disk margin is kept for files that change | partial | false for files that grow after the check; proved if the file does not become longer than it was then |
| C179 | Scans end and list only what was there, also while the directories change | partial | what is listed was there: proved without conditions; the end is proved with a depth limit, as the agent has it, and false without one |
| C180 | Scans list what stays | partial | false for files and directories that are moved or renamed; proved for what stays where it is: its directory is listed with exactly the files of one moment |
| C181 | A file that changes is sent as it was at one moment | partial | false for files that are written over; proved for files that are only appended to, and each byte for itself in all cases |
| C182 | The file service ends also for files that grow | partial | false for devices without an end; exactly when the service never ends is proved; it ends when the channel is found closed |
| C183 | The complete message has the exit status of the command | partial | false when the end of the output is seen before the shell has exited: no status is told, and the shell may be killed; a status that is told is right |
| C184 | No process of a command runs on after its service has ended | partial | the shell never runs on; false for processes that the shell has started, which nobody ends |
| C185 | The result of a scan that the server gets is that of one scan | partial | false if a scan is stored while the file is copied: the copy may be JSON that mixes two scans; proved if no scan opens the file meanwhile |
| C186 | A snapshot leaves the margin to the agent itself | partial | false where blocks are reserved for root: the check counts them as free; proved where nothing is reserved; c186_iff says exactly when a snapshot is refused |
| C187 | Which command lines run a subcommand | proved | log files are usable or not, as the system says; a subcommand succeeds or raises an Exception |
| C188 | Instructions to scan | proved | messages that make the decoder hang are left out; keys of the instruction are byte strings, thread.start() succeeds |
| C189 | The server has the information that the device gives when it is sent | partial | false: get_meta keeps what it found first, so after a failed first sync the server gets old addresses; proved for devices that do not change; c189_first says exactly what the server has |
| C190 | The server has disk figures of the last hour | partial | false: a report that fails is not repeated before an hour has passed, and after the clock was set back none is sent before it has caught up, without bound; proved if no report fails and the clock has not been later |
| C191 | Changes of the clock restart the agent | partial | false for clocks that are set back (never noticed), set between two checks, or set by at most 179 seconds at a time; a long sleep of the device kills too; c191_iff says exactly when |
| C192 | A terminal process has 15 seconds to exit after the hang-up | partial | false if the clock is set meanwhile: forward, and the process is killed too early; back, and it is killed later, without bound; c192_bounds says how much |
| C193 | Write requests can be sent again | partial | false for the last chunk: sent again it is always answered with a failure, and a file of one chunk is stored a second time; proved for all other chunks |
| C194 | Requests to open, read and close a file can be sent again | partial | proved for reading and closing; for opening it is false: sent again it is refused if there is no room for a second snapshot, a copy that fails cuts the snapshot off, and a file that changed replaces it; proved if the file has not changed, there is room and the copy is made |

## Where the code does not do what a user would expect

Each of these is a theorem about the model (the names are in MANIFEST.json).

* C05, C10, C14, C15: `decode` reads the length of a string until ':' without looking for the end of the input, so a message such as `b"5"`
  makes the receive thread spin for ever.  `c05_hang_iff` gives the exact set of such inputs.  Other malformed packets raise IndexError,
  ValueError, TypeError or OverflowError, which are not PacketErrors; the receive loop logs them and goes on.  A message that decodes to a
  byte string is indexed like a list, so the text of a number can be taken for a packet.
* C20: `handle_set_identity` checks `is_closed` and sets the identity without a lock.
* C21, C26, C100: a disconnect calls the callbacks of commands with None but leaves them registered; channels closed by a disconnect
  stay in the table, so the number is dead until the server closes it.  At the end of `run`, `self.on_close` does not exist, and the
  channels are not closed.
* C24, C25, C103, C108: a write that has passed the check is sent after the close, even to a new channel with the same number, or on the
  next connection although messages before it were lost; data that arrived before `set_callbacks` is never delivered.
* C144: `on_channel_close` shuts the local socket down only if there is one; a close that comes while the connection is being made is
  forgotten, so the local service gets the data but no end of the stream from the agent.
* C146: a directory met through a link at the last level is noted as visited, but its subdirectories are too deep there; when the scan comes
  to it by a shorter path it leaves it out, so that they, and their files, are missing from the result.  The directory itself is then listed
  under the link only.
* C147: the inode number of the root is not noted, so a link to it lists it twice.
* C141: a scan follows links, so it lists names and sizes of files outside the remote directory.
* C121: a close does not wake a thread that waits in `read`; with several readers a blocking read may return nothing.  No code of the agent
  calls `read` with block=True.
* C165: `ChannelFile.write` does not look whether the channel is closed, and sends nothing if the standard output raises.
* C168: a message that asks for a terminal or a local service by a name that the agent does not have is not answered; the channel stays
  open on the side of the server (`c168_silent`).
* C170, C171: a file whose name is not UTF-8 is listed by a scan, but no request names it (`c170_unnamed`); an instruction to read such a
  file opens and sends another one, whose path is what remains without the stray bytes (`c171_other`).
* C172: a command that is not UTF-8 is run without the stray bytes, that is, as another command (`c172_counterexample`).
* C174: a service is started on a channel that another one uses; the server receives the data of both, mixed (`c174_counterexample`).
* C175: channels of connections that have ended stay in the table with the data that nobody read, without bound (`c175_unbounded`).
* C180: a file that is moved during a scan may be missed or listed twice (`c180_missed_false`, `c180_twice_false`).
* C190: the time of the next disk report is set before the report is made, so a report that fails is not repeated before an hour has passed
  (`c190_counterexample`); after the clock was set back nothing is sent before it has caught up (`c190_unbounded`).
* C191: the thread that restarts the agent when the clock changes does not notice a clock that is set back (`c191_back`), one that is set just between
  two checks (`c191_counterexample`), or many small changes (`c191_creeps`).
* C192: the thread that waits for a terminal process measures the 15 seconds with the clock of the device, which can be set meanwhile
  (`c192_counterexample`, `c192_unbounded`).
* C193: the last chunk of a download, sent again because its answer was lost, is answered with a failure although the file is stored (`c193_final`);
  a file of one chunk is stored twice (`c193_two_files`, `c193_doubled`).
* C194: a request to open a file that is sent again makes the snapshot anew: it is refused if there is no room for a second one (`c194_no_room`), and if
  the disk is full it cuts off the snapshot that was there, after which reads end early without an error (`c194_cut`).
* C189: `get_meta` keeps what it found first, also the addresses; if the agent starts before the device is on the network, the first sync fails and
  the server is never told the address that the device has when a later sync succeeds (`c189_counterexample`).
* C186: the check of free space before a snapshot counts the blocks that are reserved for root, so the snapshot may take the last block that is
  left for the agent (`c186_counterexample`).
* C185: the copy of the result of a scan that is made while the next one is stored may be valid JSON that mixes both (`c185_counterexample`).
* C184: `process.kill()` ends only the shell; processes that the command has started run on when the channel is closed (`c184_counterexample`).
* C183: a command that exits with status 0 may be reported with `returncode: null`, and may be killed while it exits (`c183_counterexample`).
* C181: a file that is written over while it is sent arrives as a mixture, without an error (`c181_counterexample`).
* C182: a device without an end keeps a thread and a slot of the file service while the channel is open (`c182_endless`).
* C176: `copy_download` looks for a free name and then renames; a file that is saved under the name in between is replaced (`c176_counterexample`).
* C177, C178: files are copied piece by piece after their size was compared with the free space: a file that is written over meanwhile gives a snapshot that
  never was the file, one that grows takes the space that should stay free, and one that grows fast enough holds up the agent (`c177_endless`).
* C173: copies of files stay in `/var/tmp`, which survives restarts: those of uploads and downloads that are under way when the connection ends
  (`c173_kept`), and what was copied before the disk was full (`c173_left`).
* C167: `add_download` opens `<temporary directory>/dataplicity_remote_downloads/<id>` for writing and follows a link there: a local user who
  has made the folder before the agent, and knows an id, makes the agent overwrite any file (`c167_counterexample`).
* C166: `copy_download` moves whatever the server names as temporary file; a link is copied as a link, so that the server can make a link to
  `/` in the remote directory (device path `/proc/self/root`, no data, final).
* C164: `on_channel_data` writes to the local socket under the lock of the connection, in the receive thread; the instruction `sync` waits in the
  receive thread for a request of the main thread.
* C33, C35, C36: a path that is not text, or a child that cannot be created, leaves the channel open; POLLHUP without POLLIN
  keeps the command service in its loop.
* C39, C41, C42, C43, C44: the buffer is dropped when `sendall` fails and later data is still sent; one close event is shared by all
  connections of a service and never cleared, so after the first error every connection ends after at most one more poll; an empty read
  leaves the inner loop only; a division by zero in the finally clause skips the close of the channel.  The local sockets are
  shut down, but `_close_socket` is never called.
* C46, C48, C49, C50, C51: keys that arrive before the process runs are lost; a close before the process id is stored signals nothing; sizes
  above 32767 and a resize during the start are lost; the channel is not closed when the process has ended; with an unknown user
  or group the command runs as the agent.
* C53, C54, C57, C60: upload ids and device paths are joined to a folder unchecked, so absolute ones and ones with `..` leave it; a write
  request with a device path that is not UTF-8 gets no reply.  With a device path and no data any file or directory of the device is
  moved into the remote directory.
* C125, C126, C127: the checks look at the text of a path only, so links in the remote directory that lead out are followed, for reading and
  for storing; links planted in the folders for temporary files lead the agent to overwrite what they lead to.
* C56: if the size of the file cannot be determined the margin is not checked.
* C63: the root is listed again through a link to it; symbolic links report their own inode, so a directory may be listed twice; inode
  numbers are compared across file systems, so a directory may be left out; an error while listing fails the whole scan.  That a scan
  without depth limit does not end needs inodes that cannot be read, and is of theoretical interest.
* C65, C67: a request during a scan, and a scan that fails, get no answer; the result file is written in place.
* C120: a server that asks for two scans, is told of the first and opens the result gets an empty or cut file while the second is written.
* C69, C70: an error that is not an object, or whose code is a list or a dict, is not classified but raises TypeError; two threads inside
  `new_call_id` at once may get the same id.
* C71, C74: a number given as id of a batch call may collide with a generated one; replies that are not an object raise AttributeError or
  TypeError.
* C76, C80, C82, C83, C84, C88, C95: see the table.
* C87, C96, C97, C99: a key that is not a byte string raises; the managers for terminals and ports are added after the connection was
  started; a file of white space counts as a serial; invalid log levels raise KeyError, for which there is no handler.
* Beyond the properties: an instruction is not checked for its sender; a port given as text creates a channel keyed by text, whose writes
  raise PacketFormatError.

## How the theorems are tested

`tools/mutate.py` edits one definition of the model in a scratch copy, as a bug in the program would, and recompiles what depends on it.
Each attempt is one line of seeded/LOG.jsonl.  A survivor is either shown to leave the claim true (field `note`) or leads to a stronger
theorem (field `theorems_tightened`).

* Lake stops at the first module with an error, so in the entries of the first rounds `theorems_failed` often names helper lemmas
  only.  That alone does not show that a property theorem notices the edit.  The field `again` (and in later rounds `claims_unproved` and
  `property_level`) is from a second run with `tools/deep.txt`, which goes on after errors: `claims_unproved` are the theorems of the
  manifest that no longer have a proof, `property_level` the theorems and concrete cases in Props that fail by themselves.
* A failing proof is not yet a false theorem: a proof may break although the statement still holds.  An entry with an empty
  `property_level` is weaker evidence than one with a concrete case that fails.
* `tools/automutate.py` makes small edits (a comparison, a condition, a constant, a field, a call) of every definition of Py and Model
  mechanically, without looking at the claims.  Its survivors were reviewed like the others; the log has one line for each attempt, with
  the field `automatic`.
* One early run was made on a copy that did not build and logged a bogus kill.  That line was deleted, the tool now checks the copy
  first, and the mutant was run again.
