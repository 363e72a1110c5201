# Formal model of dataplicity-agent in Lean 4

Source: `/repo` (wildfoundry/dataplicity-agent, pinned commit), read as text; nothing was run.  Python 3 semantics are modelled (the code
also supports Python 2; branches for Python 2 are not modelled).

## Layout

    lean/Verif/Py/      Python primitives used by the code: bytes, text, UTF-8, int(), JSON values, posixpath, a file system (those that
                        specifications share with the model are characterised on their own: Props/Library, Props/Grammar, C81, C82)
    lean/Verif/Model/   the model, one file per source file or group of files; every definition cites file and lines
    lean/Verif/Spec/    small specifications, written without the model's helpers
    lean/Verif/Proofs/  lemmas
    lean/Verif/Props/   the property theorems (C01 ...), each with concrete cases (`example`) beside it
    properties.jsonl    the properties in English (written by tools/gen_properties.py)
    MANIFEST.json       property -> theorems and status (written by tools/gen_manifest.py from tools/claims.txt)
    AXIOMS.md           axioms of each property theorem (written by tools/gen_axioms.py)
    seeded/LOG.jsonl    mutation log (written by tools/mutate.py)

To review a property: read its line in properties.jsonl, its theorems in Props, the definitions they name in Spec, and the state and
`step` of the model.  The lemmas in Proofs need not be read.

## Conventions

* Bytes are `List UInt8`, text is `List Char` (so surrogate code points, which Python text can hold, are left out, except in `Model/Names.lean`), integers are
  `Int`/`Nat`, unbounded as in Python.
* Exceptions are values.  Code that runs against an environment (sockets, pipes, files, clock, server, children) takes the environment's
  answers as inputs, and the theorems quantify over all of them.
* Threads: a critical section under a lock is one atomic step; shared accesses outside locks are separate steps; a schedule is
  an arbitrary list of steps, and theorems quantify over all schedules.  A step that a thread cannot take is skipped.
* `while 1` loops that may not end are modelled with fuel, or as a step function over a list of inputs; "does not end" is stated as: for
  every amount of fuel, or every number of steps, it is still running.
* Where the code violates a property, the negation is proved with a concrete witness (`..._counterexample`, `..._false`) and the part that
  holds has the suffix `_partial`.  The statement in properties.jsonl stays at full strength.

## Trusted base

* The kernel of Lean 4.33.0.  No axioms besides `propext`, `Classical.choice`, `Quot.sound`; the table for each theorem is in AXIOMS.md.
  No `sorry`, `native_decide`, `bv_decide`.  Mathlib is not used.
* The reading of the Python source: the model is written by hand; nothing mechanical ties it to `/repo`.
* The behaviour assumed of what is outside of the repository (Python runtime and standard library, lomond, the kernel's files, pipes,
  sockets, ptys, the servers).  It is stated in the comments of the definitions that use it, and most of it is left open as inputs.
* The English statements in properties.jsonl and their translation in Spec and Props.

## What is modelled

* `m2m/bencode.py` (Model/Bencode): all of it, with `PyVal` for bytes, text, int, bool, float, None, list, tuple, dict.
  Values are encoded before the items of a dict are sorted, so only the order of two exceptions could differ.
  Model/Bencode leaves the recursion limit and the limit of digits of int() in recent Pythons out; Model/Limits is the same code with both
  limits, and C136 and C137 say how the two are related (calls of built-in functions are not counted).  Not modelled: memory.  `python -O` would drop the final assert of encode.  Spec/Grammar is a grammar of all inputs: those that
  `decode` reads, those that it refuses (with the exception), and those on which it does not end (C130).
* `m2m/packetbase.py`, `m2m/packets.py` (Model/Packets): the class table as data, registration, `create`, `from_bytes`, `as_bytes`, `repr`.
* `m2m/dispatcher.py`, `m2m/wsclient.py` (Model/Dispatcher, Registration, Channel, WSClient): channels with their buffers and callbacks; the client as a
  state machine over websocket events and calls of other threads; the end of the receive thread (`run`).
  Model/BlockingRead has threads that wait in `Channel.read`.  Model/ChannelFile has `get_file` and the writes to it.
  Not modelled: lomond (framing, TLS, `persist` and its waiting times), `last_packet_time`, the hooks; text messages are
  logged only.
* `limiter.py` (Model/Limiter) with any number of services sharing a limiter.
* `m2m/fileservice.py`, `m2m/commandservice.py`, `m2m/echoservice.py` and the launchers (Model/Services).
  Model/FileChanging has the loop of the file service over a file that changes between the reads.  Model/CommandProcess has the processes of
  a command (running, holding the output, exit status) beside the thread of the service; process groups and failures of `kill` are left out.
* Model/Opening leads from the message with an instruction to an echo service, a forwarded connection or a terminal, for one message at a time (which
  thread starts, which callbacks the channel gets, or which refusal is sent).  Other services of the agent appear as calls of the client by other threads.
  Channel numbers and device ports that are not numbers are left out there.
* Model/Slots has the two limiters and, of every thread that holds a slot, only its kind and its end, for all messages (also with channels that are not
  numbers and routes that are not lists).
* Model/Agent puts the client, the instructions, the limiter and any number of file and command services together.  Of a command service only the calls
  of its channel are there (they come from Model/Services).  A refused launch is modelled as a service without a slot that makes two calls; in the code
  the receive thread makes them, so that there are fewer schedules.
* `portforward.py` (Model/PortForward): the buffer shared by the receive and the forwarding thread; the forwarding threads with their
  shared close event, where the test of the event and the rest of an iteration are separate steps; the table of services.
* `m2m/proxy.py`, `m2m/remoteprocess.py`, `Terminal` (Model/Terminal; the splitting of the command, `shlex.split`, in Model/Shlex).  `close` of a process is called by the receive thread only: the
  other caller, `Terminal.close`, is never called in the agent.  `waitpid` failing with ChildProcessError in the wait thread and the
  failure of `exec` in the child are left out.
  Model/Signals has in addition the processes of the operating system, which may give the number of a collected process again; children of terminals are
  collected by `PidWaitThread` only.
* `remote_directory.py` (Model/RemoteDirectory) over a file system without links (Py/FS); permissions and full disks are inputs.
  A directory that the server names as device path is moved with its contents.  No other program changes the files between two calls
  inside one handler.  Model/Links has uploads, the scan file and the end of a download over a file system with symbolic links; without
  links the uploads agree with Model/RemoteDirectory (C125).  Links are followed as Linux does, at most 40 in one path.
  Model/Interference has the system calls of `copy_download` and the copy of `add_upload` one by one, with other programs in between; if nobody else does
  anything it agrees with Model/RemoteDirectory (`c176_agrees`, `c178_agrees`).
* `scan_directory.py` (Model/Scan) over a directory graph that does not change during the scan, behind the check that the root is a
  directory.  Model/ScanChanging has the same rounds over directories that change from round to round; listings that never end are left out.  Model/ScanCopy puts the threads of the scanner
  between the pieces of the copy that the receive thread makes of their file.  `directory_scanner.py` (Model/DirectoryScanner): all schedules of requests and scan threads; the outcome of a scan
  is an input; the file is written in pieces of any size; being killed means to stay in the state reached.
  Model/ScanWire puts it together with the client and the remote directory; there a thread that has the scan file open writes at the end
  of whatever lies at its place, which differs from a file descriptor only if another program replaces the file meanwhile.
  Model/ScanJson is the content of the file, as JSON text.
  Model/Reports is the content of the control messages of file and command services, as JSON text.
* `json.dumps` and `json.loads` of the standard library (Model/JsonText), with default arguments; floats are known by their literals only, lone
  surrogates, the limit for the digits of integers and the recursion limit are left out.
* `jsonrpc.py` (Model/JsonRpc): the server's reply is an input (any JSON value, or text that is not JSON, or no connection);
  `new_call_id` also step by step with any number of threads.  Model/RpcBytes has the bytes of requests and replies, over JSON as text.
* `client.py` (Model/Client): times in microseconds, without rounding of floats; the three parts of a poll and the syncs are events.
  Spec/Server is the other side for C117-C119: a server that follows JSON-RPC 2.0 (Spec/JsonRpcWire) and stores, for each procedure, the
  parameters of the last call that it answers with a result.  Each message gets an answer, is lost before it reaches the server, or its
  reply is lost.  Model/ClientServer puts the polls and the announcements together, one after the other.
* `tags.py`, `rpi.py`, `iptool.py`, `device_meta.py`, `disk_tools.py`, `clockcheck.py`, `constants.py` (Model/Device): `int()` of text is a
  parameter; rounding of floats is any order preserving rounding that keeps 0, 1 and 100.
  Model/ClockChange has the thread of clockcheck.py together with the clock that it reads; Model/DiskMargin has the blocks that are reserved for root;
  Model/MetaSync has the syncs of the client with what `get_meta` keeps.
* `m2mmanager.py` (Model/Instructions, WSClient, Terminal): instructions from the bytes of the message to the operations; the order of the
  steps in which the agent starts.
* Client and service together (Model/System): the file service, the echo service, a forwarded connection, and any thread that makes a
  given sequence of calls, each step by step, with the whole client of Model/WSClient; what the server sees is got by decoding the
  messages sent.  In C101 to C107, C109 and C110 the server is taken to receive what is given to the websocket; C108 has connections
  that lose messages.  `Sized` in the theorems says that no
  message is longer than a Python byte string can be (2^63 - 1).
* Client and remote directory together (Model/RemoteFiles): messages of the server go through the client to the handlers, which run
  inside of the receive thread, and what these send is encoded; other programs change files between.
* Terminals in more detail (Model/TermControl): control messages as JSON values, sizes of any shape, file descriptors and their reuse;
  client and terminal together (Model/TermWire).  `os.write` to the terminal is one step there, however long it takes.
* Scans of a file system with links (Model/ScanFs): the graph of directories that Model/Scan takes as given is got from the file system of
  Model/Links.  The file system does not change during a scan.  `scanOld` is the same with the replacement for `os.scandir`
  (scan_directory.py:24-54).
* Names of files that are not UTF-8 (Model/Names): Python strings with surrogates, `os.fsdecode` and `os.fsencode` with `surrogateescape`, such
  strings in `json.dumps`.  Elsewhere all names are UTF-8.
* The end of the agent (Model/Exit): `run_forever`, `Client.exit`, `Client.close` and the clock thread as two threads whose steps come in any
  order, `M2MManager.on_client_close`.  A poll and a sleep are one step each, taken to come to their end at some time.
* All locks (Model/Locks): each function by the locks it takes, in which order, and the input and output under them; any number of threads, any
  schedule.  The locks of lomond (websocket) and of `logging` are assumed to be held by one thread at a time; `Thread.start` is assumed to need no
  lock of the agent.
* `app.py`, `subcommand.py`, `subcommands/` (Model/App): log levels, exit status, serial and token; the command line (Model/CommandLine: `argparse` of
  Python 3.11 for this parser, checked against Python's on random lines; Spec/CommandLine is a grammar of the lines).  Not modelled: what is printed for
  `--help`, `--version` and errors;
  `str.upper` is a parameter.

Not modelled at all: log output (other than the `repr` of packets, for C13), `compat.py` apart from the functions used, `_version.py`,
`setup.py`, `__repr__` of other objects, Python 2.

## Status of the properties

@@TABLE@@

## Where the code does not do what a user would expect

Each of these is a theorem about the model (the names are in MANIFEST.json).

* C05, C10, C14, C15: `decode` reads the length of a string until ':' without looking for the end of the input, so a message such as `b"5"`
  makes the receive thread spin for ever.  `c05_hang_iff` gives the exact set of such inputs.  Other malformed packets raise IndexError,
  ValueError, TypeError or OverflowError, which are not PacketErrors; the receive loop logs them and goes on.  A message that decodes to a
  byte string is indexed like a list, so the text of a number can be taken for a packet.
* C20: `handle_set_identity` checks `is_closed` and sets the identity without a lock.
* C21, C26, C100: a disconnect calls the callbacks of commands with None but leaves them registered; channels closed by a disconnect
  stay in the table, so the number is dead until the server closes it.  At the end of `run`, `self.on_close` does not exist, and the
  channels are not closed.
* C24, C25, C103, C108: a write that has passed the check is sent after the close, even to a new channel with the same number, or on the
  next connection although messages before it were lost; data that arrived before `set_callbacks` is never delivered.
* C144: `on_channel_close` shuts the local socket down only if there is one; a close that comes while the connection is being made is
  forgotten, so the local service gets the data but no end of the stream from the agent.
* C146: a directory met through a link at the last level is noted as visited, but its subdirectories are too deep there; when the scan comes
  to it by a shorter path it leaves it out, so that they, and their files, are missing from the result.  The directory itself is then listed
  under the link only.
* C147: the inode number of the root is not noted, so a link to it lists it twice.
* C141: a scan follows links, so it lists names and sizes of files outside the remote directory.
* C121: a close does not wake a thread that waits in `read`; with several readers a blocking read may return nothing.  No code of the agent
  calls `read` with block=True.
* C165: `ChannelFile.write` does not look whether the channel is closed, and sends nothing if the standard output raises.
* C168: a message that asks for a terminal or a local service by a name that the agent does not have is not answered; the channel stays
  open on the side of the server (`c168_silent`).
* C170, C171: a file whose name is not UTF-8 is listed by a scan, but no request names it (`c170_unnamed`); an instruction to read such a
  file opens and sends another one, whose path is what remains without the stray bytes (`c171_other`).
* C172: a command that is not UTF-8 is run without the stray bytes, that is, as another command (`c172_counterexample`).
* C174: a service is started on a channel that another one uses; the server receives the data of both, mixed (`c174_counterexample`).
* C175: channels of connections that have ended stay in the table with the data that nobody read, without bound (`c175_unbounded`).
* C180: a file that is moved during a scan may be missed or listed twice (`c180_missed_false`, `c180_twice_false`).
* C190: the time of the next disk report is set before the report is made, so a report that fails is not repeated before an hour has passed
  (`c190_counterexample`); after the clock was set back nothing is sent before it has caught up (`c190_unbounded`).
* C191: the thread that restarts the agent when the clock changes does not notice a clock that is set back (`c191_back`), one that is set just between
  two checks (`c191_counterexample`), or many small changes (`c191_creeps`).
* C192: the thread that waits for a terminal process measures the 15 seconds with the clock of the device, which can be set meanwhile
  (`c192_counterexample`, `c192_unbounded`).
* C193: the last chunk of a download, sent again because its answer was lost, is answered with a failure although the file is stored (`c193_final`);
  a file of one chunk is stored twice (`c193_two_files`, `c193_doubled`).
* C194: a request to open a file that is sent again makes the snapshot anew: it is refused if there is no room for a second one (`c194_no_room`), and if
  the disk is full it cuts off the snapshot that was there, after which reads end early without an error (`c194_cut`).
* C189: `get_meta` keeps what it found first, also the addresses; if the agent starts before the device is on the network, the first sync fails and
  the server is never told the address that the device has when a later sync succeeds (`c189_counterexample`).
* C186: the check of free space before a snapshot counts the blocks that are reserved for root, so the snapshot may take the last block that is
  left for the agent (`c186_counterexample`).
* C185: the copy of the result of a scan that is made while the next one is stored may be valid JSON that mixes both (`c185_counterexample`).
* C184: `process.kill()` ends only the shell; processes that the command has started run on when the channel is closed (`c184_counterexample`).
* C183: a command that exits with status 0 may be reported with `returncode: null`, and may be killed while it exits (`c183_counterexample`).
* C181: a file that is written over while it is sent arrives as a mixture, without an error (`c181_counterexample`).
* C182: a device without an end keeps a thread and a slot of the file service while the channel is open (`c182_endless`).
* C176: `copy_download` looks for a free name and then renames; a file that is saved under the name in between is replaced (`c176_counterexample`).
* C177, C178: files are copied piece by piece after their size was compared with the free space: a file that is written over meanwhile gives a snapshot that
  never was the file, one that grows takes the space that should stay free, and one that grows fast enough holds up the agent (`c177_endless`).
* C173: copies of files stay in `/var/tmp`, which survives restarts: those of uploads and downloads that are under way when the connection ends
  (`c173_kept`), and what was copied before the disk was full (`c173_left`).
* C167: `add_download` opens `<temporary directory>/dataplicity_remote_downloads/<id>` for writing and follows a link there: a local user who
  has made the folder before the agent, and knows an id, makes the agent overwrite any file (`c167_counterexample`).
* C166: `copy_download` moves whatever the server names as temporary file; a link is copied as a link, so that the server can make a link to
  `/` in the remote directory (device path `/proc/self/root`, no data, final).
* C164: `on_channel_data` writes to the local socket under the lock of the connection, in the receive thread; the instruction `sync` waits in the
  receive thread for a request of the main thread.
* C33, C35, C36: a path that is not text, or a child that cannot be created, leaves the channel open; POLLHUP without POLLIN
  keeps the command service in its loop.
* C39, C41, C42, C43, C44: the buffer is dropped when `sendall` fails and later data is still sent; one close event is shared by all
  connections of a service and never cleared, so after the first error every connection ends after at most one more poll; an empty read
  leaves the inner loop only; a division by zero in the finally clause skips the close of the channel.  The local sockets are
  shut down, but `_close_socket` is never called.
* C46, C48, C49, C50, C51: keys that arrive before the process runs are lost; a close before the process id is stored signals nothing; sizes
  above 32767 and a resize during the start are lost; the channel is not closed when the process has ended; with an unknown user
  or group the command runs as the agent.
* C53, C54, C57, C60: upload ids and device paths are joined to a folder unchecked, so absolute ones and ones with `..` leave it; a write
  request with a device path that is not UTF-8 gets no reply.  With a device path and no data any file or directory of the device is
  moved into the remote directory.
* C125, C126, C127: the checks look at the text of a path only, so links in the remote directory that lead out are followed, for reading and
  for storing; links planted in the folders for temporary files lead the agent to overwrite what they lead to.
* C56: if the size of the file cannot be determined the margin is not checked.
* C63: the root is listed again through a link to it; symbolic links report their own inode, so a directory may be listed twice; inode
  numbers are compared across file systems, so a directory may be left out; an error while listing fails the whole scan.  That a scan
  without depth limit does not end needs inodes that cannot be read, and is of theoretical interest.
* C65, C67: a request during a scan, and a scan that fails, get no answer; the result file is written in place.
* C120: a server that asks for two scans, is told of the first and opens the result gets an empty or cut file while the second is written.
* C69, C70: an error that is not an object, or whose code is a list or a dict, is not classified but raises TypeError; two threads inside
  `new_call_id` at once may get the same id.
* C71, C74: a number given as id of a batch call may collide with a generated one; replies that are not an object raise AttributeError or
  TypeError.
* C76, C80, C82, C83, C84, C88, C95: see the table.
* C87, C96, C97, C99: a key that is not a byte string raises; the managers for terminals and ports are added after the connection was
  started; a file of white space counts as a serial; invalid log levels raise KeyError, for which there is no handler.
* Beyond the properties: an instruction is not checked for its sender; a port given as text creates a channel keyed by text, whose writes
  raise PacketFormatError.

## How the theorems are tested

`tools/mutate.py` edits one definition of the model in a scratch copy, as a bug in the program would, and recompiles what depends on it.
Each attempt is one line of seeded/LOG.jsonl.  A survivor is either shown to leave the claim true (field `note`) or leads to a stronger
theorem (field `theorems_tightened`).

* Lake stops at the first module with an error, so in the entries of the first rounds `theorems_failed` often names helper lemmas
  only.  That alone does not show that a property theorem notices the edit.  The field `again` (and in later rounds `claims_unproved` and
  `property_level`) is from a second run with `tools/deep.txt`, which goes on after errors: `claims_unproved` are the theorems of the
  manifest that no longer have a proof, `property_level` the theorems and concrete cases in Props that fail by themselves.
* A failing proof is not yet a false theorem: a proof may break although the statement still holds.  An entry with an empty
  `property_level` is weaker evidence than one with a concrete case that fails.
* `tools/automutate.py` makes small edits (a comparison, a condition, a constant, a field, a call) of every definition of Py and Model
  mechanically, without looking at the claims.  Its survivors were reviewed like the others; the log has one line for each attempt, with
  the field `automatic`.
* One early run was made on a copy that did not build and logged a bogus kill.  That line was deleted, the tool now checks the copy
  first, and the mutant was run again.
