# Formal model of SID in Lean 4: design

Source under study: `/repo` (sid-project/sid, pinned commit).  The code was read as text; nothing was built or run.  All theorems
are about the Lean model; the tie to the code is the `file:line` citation carried by every definition in `lean/Verif/Model/`.

## Layout

* `lean/Verif/Model/*.lean`   executable model, one file per C file or subsystem.  Every definition cites the lines it models and
  says where it simplifies; the head of each file lists the simplifications that hold for all of it.
* `lean/Verif/Spec/*.lean`    small independent specifications used in theorem statements.
* `lean/Verif/Proof/*.lean`   helper lemmas.
* `lean/Verif/Props/*.lean`   the property theorems (`Sid.Props.Cnn_...`), with `example`s beside them that show the hypotheses can
  be met by something concrete.
* `properties.jsonl`          the English properties; `MANIFEST.json` maps properties to theorems.
* `seeded/LOG.jsonl`          wrong programs that were tried against the theorems, one line each.

## Conventions

* C integers are `Nat`/`Int` unless a property is about wrap-around or truncation; then the width is modelled (`UInt8`, `BitVec`,
  explicit `%`).
* A mutating function becomes a function returning the new state.
* Memory allocation succeeds unless its failure is part of the property.
* System calls (read, write, clock, udev, sysfs, processes, `sd_notify`) are parameters: the theorems quantify over every behaviour
  of them that the model's type allows (every read/write schedule, every result of a handler, every order of events).
* Undefined behaviour (out-of-bounds access, use after free, wrong type, NULL dereference, reading uninitialised memory) is a
  distinct outcome of the model (`none` unless said otherwise), never silently made total.
* Loops that need not end have fuel in the model and the theorems say "for all large enough" or "for every".
* The code that exists is modelled, with its mistakes.  If the code violates a property, a theorem whose name contains
  `counterexample` shows the violation with a concrete witness (or for all inputs of a kind), and theorems with suffix `_partial`
  prove the property under a guard stated as hypothesis.
* Theorems are about all inputs, states and histories; histories are inductive relations or lists of operations of any length, and
  the proofs are by induction over them with an invariant.  `decide` and `rfl` on literals occur in `example`s and
  counterexamples only.

## Trusted base

* Lean's kernel (4.33.0).
* The axioms `propext`, `Classical.choice`, `Quot.sound`; no others, none of our own, no `sorry`, no `native_decide`, no `bv_decide`.
  The last section lists which theorem depends on which.
* The transcription: that each definition in `Model/` does what the cited lines do, apart from the simplifications stated there.
* The statement: that `Spec/` and the theorem say what the English property says.
* Not part of the trusted base: `Proof/`, the examples, the tools that produced the manifest.

### Modelled

| Source | Modelled in | Left out |
|--------|-------------|----------|
| `base/conv-base64.c` | Base64 | nothing |
| `base/buf.c`, `base/buf-type-linear.c` | LinearBuf, BufIo, Dump (file backend) | destroy; failures of memory and files; the storage backends are one, apart from the file in Dump |
| `base/buf-type-vector.c` | VectorBuf | `reset_init`, `release_mem`, `get_fd` |
| `base/comms.c` | WrkChan (send and receive with descriptor), Start (creation of the listening socket) | connecting |
| `daemon/sid.c`, `resource/sid.c` | Start (becoming a daemon, start, exit status), Log (options) | descriptors of the log, signals |
| `base/util.c` | BaseUtil, UbrMod (`sid_util_sysfs_get`) | nothing |
| `internal/bmp.c` | Bitmap | nothing |
| `internal/list.c`, `list.h` | List | nothing |
| `internal/hash.c` | Hash, HashMem (memory, failing allocations) | addresses of blocks |
| `internal/bptree.c` | BpTree, BpMem (memory, key references, `meta_size`, destruction) | addresses of blocks, wrapping counters |
| `internal/fmt.c` | Fmt | nothing but allocation failure |
| `internal/util.c` | UtilStr (strings, vectors of strings), UbrEvent (conversions of names) | UUID generation, process data, time |
| `resource/kvs.c` | Kvs (sets, gets, transactions), KvsIter (iterators, sizes), UbrIdx (aliases) | metadata size |
| `resource/res.c` | Res (tree, references, search, iterators), EvSrc (events), SrvLnk (links) | logging, event loop itself |
| `resource/mod-reg.c` | ModReg | `dlopen`/`dlsym` themselves |
| `iface/srv-lnk.c` | SrvLnk | what the logger does with a line |
| `iface/ifc.c` | Ifc | socket creation |
| `resource/wrk-ctl.c` | WrkChan (channels), WrkCtl (proxies), WrkFds (file descriptors, fork, exec) | what internal workers do, signals, timers apart from their firing |
| `log/*.c`, the log functions of `resource/res.c`, options in `daemon/sid.c` | Log | `printf` formats, `errno`, `openlog`/`closelog` and flushing, `getopt_long` itself |
| `resource/ubr.c` | UbrKey, UbrDb, UbrIdx (the database on its tree), UbrDelta, UbrSync, UbrCodec, UbrGen, UbrBoot, Dump, UbrGroup, UbrStack, UbrStrv (its memory), UbrAlias, UbrIdent, UbrEvent, UbrMod, SysDeps, DevState, Scan, UbrCmd, UbrSys (all processes together), UbrConn, Listing, WrkCtl, and parts of Ifc | see the list below |
| `modules/ucmd/type/dm/*` | Dm, LvmNext | copies of names for modules |
| `modules/ucmd/block/dm_mpath` | Mpath | libmpathvalid itself |
| `modules/ucmd/block/blkid` | Blkid | libblkid itself |
| `tools/usid/usid.c`, `tools/sidctl/sidctl.c` | Tools, Listing (`sidctl version`) | `getopt_long`, help texts, failing `printf` |

Not modelled in `resource/ubr.c`: reading of names from sysfs, what `_init_ubridge` sets up other than
its socket and the boot id (Start, UbrBoot), udev monitor set-up, the internals of `sid_kvs` (in Kvs).  Not modelled at all: the dummy modules, the Python/systemd/dracut files.

### Environment

What the theorems assume of the environment is in their hypotheses.  Common to all: one process at a time runs in one address
space (workers are processes of their own with a copy of the store); memory is not corrupted from outside; `memcpy`, `strcmp`,
`qsort` etc. do what the C standard says; the machine is little endian with 64-bit `size_t`; systemd's event loop dispatches a
source as described in Model/EvSrc.lean.

## Where the code does not do what the property says

Each of these is a theorem about the model (named in `MANIFEST.json`); they were found while proving.

* Buffers: with a size prefix `reset_init` may exceed its limit (C06); `get_data` at a lower position, a refused `reset_init` and reads
  move memory handed out (C07); zero-filled adds to vector buffers wipe the first items (C11).
* Hash table: adding over an existing key keeps the old length; a callback that adds an entry to the same slot is overwritten (C12).
* B+ tree: a range whose start is not stored begins too early (C17); deleting one of several names of a record other than the
  least takes the wrong pointer out of the leaf (C18).
* Key-value store: a key written twice in a transaction is not rolled back to its first value, archives in transactions are
  released twice or left behind (C21); unset then set in one transaction loses the value (C22).
* Resources: two kinds of search look into resources not to be walked into or miss others (C26, C68); priorities of resources
  without parent (C66); iterators going both ways (C67); a positive result of a child process handler, 2^64-1 events (C27); a
  failing clock at timer creation (C69).
* Records: modules or devices with a separator in their name share records (C29); names such as `/block/x` and `/type/y` are taken
  for related (C30, C31); a refused set crashes (C30); global reservations do not bind in other namespaces (C32).
* Synchronisation: two removed sets in one message are read through a stale pointer (C35); an unset forgets the sequence number
  (C36); records without data are taken for removals (C37); index entries of reservations (C38).
* Device states: a state set without having been read starts from the wrong state; refused writes leave the cached state changed
  (C39, C40).
* Commands: no response in the second stage or of a failed command, any message is taken for the acknowledgement (C42); refused
  requests are never answered, unknown command numbers index a table out of bounds (C43).
* Workers: a late udev message sets an exiting worker back to assigned; no worker is ever idle (C44).
* Modules: directories loaded twice register modules twice (C46).
* Service links: an argument list is used once per member; merging groups with members (C47).
* Strings: the copy of a vector of strings has no end; backward search never looks at the very beginning (C48); lines with a key but no
  value (C70); numbers from the environment (C65); kernel command line values keep their `=` (C64).
* Groups and devices: the main store may lose one direction when a group is replaced as a whole; groups in other namespaces cannot
  be destroyed (C49); a disk not seen yet makes searches of the stack fail, a UUID given as key is undefined (C50); identifiers
  with a colon or longer than 36 bytes, numbers recorded twice (C51).
* Output: no escaping, booleans in braces (C52); missing or superfluous commas in the listings (C72).
* Client: minors from 4096 on are refused (C54); an empty variable ends the import of the environment (C62).
* Generations: 65535 wraps to 0, a refused file starts again at 1 (C55).

## Properties: what is modelled and how it is proved

* **C01 Base64 round trip** (proved). Model: Base64, byte lists. Proof: induction over groups of three bytes against the RFC's bit arithmetic. Any non-empty byte string; text equals the RFC 4648 text.
* **C02 Base64 decoding ignores foreign characters** (proved). Model: Base64, the decoder's state machine. Proof: the decoder's state depends on the filtered text only.
* **C03 Base64 length contract** (proved). Model: Base64. Proof: arithmetic on lengths by induction.
* **C04 Bitmap behaves as a set of bit positions** (proved). Model: Bitmap, 32-bit blocks. Proof: invariant count = number of set positions; refinement to a set of positions. Sizes up to 2^37 bits; C04_truncation_beyond_2_37 shows what happens beyond.
* **C05 Linear buffer is an append-only byte sequence with rewind** (proved). Model: LinearBuf as state machine. Proof: refinement to a byte list with marks, induction over calls.
* **C06 Buffer allocation limit is never exceeded** (proved). Model: LinearBuf. Proof: invariant used <= allocated <= limit over all histories. In size-prefix mode the claim needs every reset_init to fit its own limit including the prefix; the counterexample theorem shows why. A limit without a step is undefined behaviour (division by zero).
* **C07 Memory handed out by a buffer stays valid** (partial). Model: LinearBuf, addresses of handed out memory. Proof: invariant over histories that keep to the discipline. Adds are refused and memory is stable under the stated discipline; three counterexample theorems show calls that break the claim as stated (lower get_data, refused reset_init, read).
* **C08 Size-prefixed framing survives any fragmentation** (proved). Model: BufIo, any schedule of read and write. Proof: induction over the schedule.
* **C09 A framed read never consumes bytes of the next message** (proved). Model: BufIo. Proof: the reader asks for no more than the rest of its message; induction over the schedule. Readers with step 1 and initial size not above the payload (all readers in the code); counterexample for bigger initial sizes.
* **C10 write_all transmits exactly the buffer content** (proved). Model: BufIo, VectorBuf. Proof: induction over the schedule of partial writes. Linear and vector buffers; the descriptor must not report ENODATA itself (counterexample).
* **C11 Vector buffer keeps added items intact** (partial). Model: VectorBuf. Proof: refinement to a list of items. Zero-filled adds wipe the first items (counterexamples); everything else proved under that guard.
* **C12 Hash table behaves as a finite map** (partial). Model: Hash, slots of chains, the real hash function. Proof: refinement to a finite map over all histories. Partial: hash_add over an existing key keeps the old length (counterexample theorem); a callback adding an entry in the same slot makes the update overwrite it (counterexample theorem); everything else proved for all histories.
* **C13 Hash table iteration is complete and duplicate free** (proved). Model: Hash iteration. Proof: order of slots and chains; every entry once. Same histories as C12.
* **C14 Linked list operations preserve the ring** (proved). Model: List, a heap of links. Proof: representation predicate of a ring with frame reasoning. Any number of lists at once, arbitrary initial memory; also the deletion-safe loop.
* **C15 B+ tree behaves as a finite map** (proved). Model: BpTree, nodes with separators. Proof: invariant (order, fill, separators) + refinement to a sorted association list.
* **C16 B+ tree stays balanced** (proved). Model: BpTree. Proof: all leaves at one depth, fill bounds, preserved by split and merge.
* **C17 B+ tree iteration is ordered and complete** (partial). Model: BpTree iteration over the chain of leaves. Proof: leaf chain = in-order list. Whole and prefix iteration are exact for all trees. A range is exact when its start is open or a stored key; with a start that is not stored the range begins at the first key of the leaf, so smaller keys are reported (C17_range_start_counterexample); C17_range_covers bounds the excess.
* **C18 B+ tree aliases share one record** (partial). Model: BpTree with shared records. Proof: invariant over the record heap, reference counts. Full refinement for histories that remove only the least name of a record. Removing another name takes the first pointer to the record out of the leaf, which shifts the records of the keys in between (C18_delete_alias_counterexample). Reference count = number of names, and the set of names after a delete, hold for all histories.
* **C19 Key-value store returns what was stored** (proved). Model: Kvs over either backend. Proof: refinement to a map; ownership of values by identity. Proved for both backends (B+ tree of any order, hash table of any size), without aliases (aliases: C18). Values are kept by identity; a destroyed value that is looked at is undefined behaviour, and the theorems show it does not happen. Memory allocation is assumed to succeed.
* **C20 Key-value update callbacks are authoritative** (proved). Model: Kvs update callbacks. Proof: as C19 with an arbitrary callback. Callbacks are arbitrary functions of the stored and the new value. Outside of transactions without restriction; within a transaction for keys that were not unset in it. A negative answer of a set callback also stores the new value (kvs.c:412 tests r for nonzero), which the specification states.
* **C21 Transactions roll back atomically** (partial). Model: Kvs transactions. Proof: undo log lemma: rolling back restores the map. Partial: holds if no key is written twice in the transaction and unsets in it have no archive. Counterexamples without the guard: set twice leaves the intermediate value, archived twice releases a value twice, unset with archive leaves the archive key behind.
* **C22 Transactions commit what was done** (partial). Model: Kvs transactions. Proof: pending unsets applied at commit. Partial: holds if a key that is unset in the transaction is not used again in it. Counterexample without the guard: unset then set of one key loses the new value at commit.
* **C23 Archiving keeps the previous value** (proved). Model: Kvs archive. Proof: as C19. Outside of transactions without restriction (archive key different from the key); with C22 also after a committed transaction.
* **C24 Resource children are ordered by priority** (proved). Model: Res child lists. Proof: sortedness by insertion, induction over histories.
* **C25 Resource reference counting** (proved). Model: Res heap and counts. Proof: invariant count = 1 + references + ...; a resource is freed exactly when nothing refers to it. All histories that keep to the rules of Spec.Res.World.Ok. Counterexamples for the two rules that the code does not check: attaching a resource below itself, and a failing initializer whose child is referred to by others.
* **C26 Resource search is sound and complete** (partial). Model: Res search. Proof: structural recursion over the tree against a reachability specification. All methods; for WIDE_DFS and GENUS only if no attached resource with children is marked as not to be walked into. Counterexample and exact description of the wide search included.
* **C27 Event counters bound handler invocations** (partial). Model: EvSrc counters. Proof: invariant fired <= max over all sequences of events. Handlers of child process sources must not return a positive number and a source without limit must not fire 2^64-1 times; counterexamples for both.
* **C28 Database keys are uniquely decodable** (proved). Model: UbrKey. Proof: splitting at separators inverts joining.
* **C29 Namespace isolation of module records** (partial). Model: UbrKey. Proof: injectivity of the key of a call. Holds for module names and device identifiers without the separator (guard Plain); C29_counterexample shows two modules sharing a record otherwise.
* **C30 Write protection of foreign records** (partial). Model: UbrDb. Proof: decision table of owner relation and flags. Guards: the names are not confused by the matching (C30_confused: exactly then the flag for subordinates decides for unrelated modules, C30_counterexample: /block/x and /type/y); a denied set of a value crashes (C30_denied_set_crashes), so the theorem speaks of calls that return.
* **C31 Read protection of foreign records** (partial). Model: UbrDb. Proof: decision table. Same guard on names as C30; errors -EPERM and -ENOENT told apart.
* **C32 Key reservations are exclusive** (partial). Model: UbrDb. Proof: invariant over histories of calls. Reserve and unreserve proved for all names and histories. Global reservations bind setters only in the global namespace: C32_counterexample for the namespace of devices.
* **C33 Set records: step delta** (proved). Model: UbrDelta, sorted merge. Proof: algebra of sorted lists against set operations. C33_step: for every store, key, operation, header and sorted items. C33_update: the whole update including the records of the items, at any point of a history of updates in a worker.
* **C34 Set records: accumulated delta** (proved). Model: UbrDelta, accumulated differences. Proof: invariant base + differences = current, over histories. For every history of updates the daemon makes (in the name of the core, items naming pairwise different records); quantified over all set-valued records at once.
* **C35 Set records: synchronisation merges concurrent workers** (partial). Model: UbrSync, UbrDelta. Proof: merge of differences as set algebra. Merge of a message, convergence with one worker and commutation of disjoint messages, for all stores and messages in the order of their keys. Partial: messages with two records of removed items without the flag RS that empty their sets make the main process read through a stale pointer (C35_counterexample).
* **C36 Newest event wins in the main store** (partial). Model: UbrSync. Proof: sequence numbers never decrease. Newest write wins for all sequences of messages that set a record by its module; sequence number never decreases; older sets and unsets are ignored. Partial: an unset forgets the sequence number, so an older write coming later is taken (C36_counterexample).
* **C37 Export and import are inverse** (partial). Model: UbrCodec, UbrSync. Proof: byte-level round trip by induction over records. Round trip of the bytes for all records (messages up to 64 MiB, the limit of the reader), reading by the main process of what a worker exports, and loading into an empty store. Partial: records without data are read as requests for removal (C37_counterexample: reservations in the database file are not loaded, reservations made in workers never reach the main process).
* **C38 Only changed records are exported, once** (partial). Model: UbrSync, index. Proof: invariant: in the index iff changed since the last export. For all histories of module calls, set updates and exports. Partial: records whose index entry was wrong from the start (reservations of the main process, C38_counterexample), archives and set-valued records themselves are excluded.
* **C39 Device ready state machine** (partial). Model: DevState. Proof: transition table, all histories of calls. Partial: holds when a command reads the state before setting it (the cached value starts as 0) and the store accepts the write; C39_unread_state_counterexample and C39_denied_write_counterexample show the code violating it otherwise.
* **C40 Device reserved state machine** (partial). Model: DevState. Proof: transition table, all histories of calls. Partial: as C39; C40_unread_state_counterexample shows the violation when the state was not read first.
* **C41 Scan phases run in order with guaranteed cleanup** (proved). Model: Scan, handlers arbitrary. Proof: induction over the phase table against a relation of allowed courses. Phase handlers are arbitrary functions of an arbitrary state. A failing error or exit phase after a failed middle phase is only logged and the command still returns 0; this is what the code does and what the Course relation says.
* **C42 Command life cycle** (partial). Model: UbrCmd state machine. Proof: trace invariants over all event orders. Proved for all outcomes and orders: at most one response, no execution after the yield; with messages as the main process sends them: a finished client command responded exactly once (in its first stage), only after all exports were acknowledged, yields exactly once and exactly when finished or failed, is never stuck, and runs at most 2 times per stage plus once per question. The English statement is false in three ways, shown by counterexamples: no response in the second stage, no response of a failed command, a udev property set in the second stage crashes the worker; a message other than the acknowledgement while waiting for it is taken for it.
* **C43 Client requests are validated** (partial). Model: UbrConn over BufIo. Proof: framing of C08/C09, then decision logic. Proved for all byte streams, fragmentations, credentials: a command is created only for requests with whole header, right protocol, known command and a client allowed to run it; of framed requests exactly the acceptable ones are executed, once and in order. The English statement is false in three ways: a refused request is never answered (theorem for all inputs: the failure reply is written only if adding it to the buffer fails); every request with an unknown command number is undefined behaviour (out of bounds access of the table of commands, by any user); the refusal of a request shorter than a header reads behind the buffer.
* **C44 Worker assignment is exclusive** (proved). Model: WrkCtl proxies. Proof: invariant over all event histories. Proved for every history of client connections, udev messages, yields, timeouts and ends of worker processes. The code never records a worker as idle, so each job goes to a new process (C44_always_fresh). Counterexamples: a late udev message sets an exiting worker back to assigned; a failed accept leaves a worker that is never used. Worker ids (UUIDs) are taken as never generated twice.
* **C45 Worker channel delivers messages in order** (proved). Model: WrkChan over BufIo. Proof: framing, induction over messages. Proved for the default lanes of workers, any segmentation of writes and reads, any number of messages with data of less than 2^32-8 bytes; the write schedule never reports ENODATA. A message whose descriptor byte never came is delivered with descriptor -1.
* **C46 Module lookup by name or alias** (partial). Model: ModReg. Proof: invariant of registry lists over histories. Lookup is proved for every history of loading and unloading (aliases declared as SID_MOD_ALIASES does). Loading by an already registered name or alias never loads again. That no two modules share a name is proved only for single loads of names without a slash (C46_no_duplicates_partial): loading a directory twice, a directory with a.so and a.SO, and names with a slash register a module again (counterexamples). dlopen, running of module code and memory exhaustion are not modelled; the result of a module's init is an input.
* **C47 Service link groups notify every interested member** (partial). Model: SrvLnk on the heap of List. Proof: representation of groups, induction over members. Model of all of srv-lnk.c at pointer level and of the links a new resource gets. Histories of calls, group notification, single notification, copying and resource links are proved for all histories. Partial: a message with arguments that is formatted more than once is undefined behaviour (C47_counterexample_arguments), so notification is proved without arguments or with one user of them; merging a group with members is undefined behaviour in every reachable state (C47_counterexample_merge), so merging is proved for sources without members only.
* **C48 String vector combine and split are inverse** (partial). Model: UtilStr. Proof: recursion of the splitter against a grammar of words. Splitting is proved to yield exactly the words written in the text, for all texts, delimiters and quotes, including failure and memory use. Partial: util_strv_copy leaves the end of the copy unmarked; util_str_rstr never finds an occurrence at the very beginning; with a text to be found between prefix and suffix it may reach into the suffix. Counterexample theorems are given for each.
* **C49 Group membership is consistent in both directions** (partial). Model: UbrGroup over UbrDelta. Proof: invariant: both directions agree, for all calls. In a worker both membership lists agree after every sequence of calls and exports, all calls succeed where the API says so, add/del/destroy/rename/dependency updates have exactly their stated effect. Partial for the main store: messages replacing the record of a group as a whole (C49_counterexample_main) and messages excluded by C35. Groups in namespaces other than the own one of the module cannot be destroyed (C49_counterexample). Identifiers are free of colons, disk sequence numbers of a device are distinct.
* **C50 Device stack queries compute the transitive closure** (partial). Model: UbrStack. Proof: well-founded induction over the stack, loops by list induction. Both directions proved for every finite acyclic stack in every store whose group lists agree (C49), by induction over the stack. Partial: every disk reached must be known as exactly one device and the other way round (C50_counterexample_unknown: a disk not seen yet makes the whole search fail with ENODATA), a device must be given by key (C50_counterexample_plain: a plain UUID is undefined behaviour); on cyclic stacks the search never ends (C50_cycle). Duplicates in the result are not excluded (the example with two ways to one disk returns it twice).
* **C51 Device identity is stable** (partial). Model: UbrIdent over UbrGroup. Proof: invariant on device numbers over all calls and exports. Proved in a worker and in the main store: a device gets the identifier on record for its number, else that of udev, else the generated one; it is on record afterwards, stays on record whatever happens, and a device that comes again gets it. Partial: identifiers must be non-empty, at most 36 bytes, without colon and NUL; a number is on record for one device only (the import of udev database at start and two workers at once can record two, then the lookup writes beyond its buffer); totality needs no reservation of device states. Counterexample theorems for each. A device number used again for another device gets the old identifier; if daemon and udev differ the daemon wins and udev is not corrected.
* **C52 Printed documents are well formed** (partial). Model: Fmt against a JSON grammar. Proof: induction over nested documents. Proved for every properly nested sequence of documents, arrays, elements, text, binary and number fields, of any depth, width and indentation: the output is one JSON text with the meaning written (Text has one meaning, C52_meaning). False for fmt_fld_bool fields (the field itself is put into braces, C52_counterexample_bool) and for text with quotation marks or backslashes, which is not escaped (C52_counterexample_quote, C52_counterexample_forged).
* **C53 Client result accessor** (proved). Model: Ifc result accessor. Proof: case analysis of the stored bytes.
* **C54 Every device number is accepted** (partial). Model: Ifc, device numbers. Proof: arithmetic. Partial: proved for minors below 4096. Larger minors are refused with ERANGE because the limits of major and minor are swapped in ifc.c:22-23 (theorem C54_large_minor_refused_counterexample).
* **C55 Database generation increases** (partial). Model: UbrGen over UbrCodec and UbrSync. Proof: induction over lives of the daemon. First start gives 1; a start from a saved database gives the stored generation + 1; over any history of lives (saving any number of times or never, ending at any time, worker messages silent about the generation, which is proved of whatever modules do) every start gives 1 + number of earlier lives that saved. Missing: generation 65535 wraps to 0 (C55_counterexample_wrap); a file that is refused (more than 64 MiB, too short) is taken as none and the generation is 1 again (C55_counterexample_refused); files written in part (written in place, read behind their end: undefined) are excluded by Saved.
* **C56 Hash table with several values per key** (proved). Model: Hash with data compared. Proof: refinement to a multi map.
* **C57 Modules are consulted only when the device is ready for it** (proved). Model: Scan with DevState. Proof: phases in which modules are called.
* **C58 Reading without framing appends what was received** (proved). Model: BufIo without framing. Proof: induction over the schedule. End-of-input part under a non-zero allocation step (C58_step_zero_counterexample shows the false end of input otherwise).
* **C59 B+ tree entry and size accounting** (proved). Model: BpTree counters. Proof: invariant over histories.
* **C60 Key-value store releases each stored value exactly once** (proved). Model: Kvs ownership. Proof: each value identity is released at most once, and not while reachable. Theorems cover all histories outside of transactions and rolled back transactions that write each key at most once.
* **C61 Requests carry exactly the client's data** (proved). Model: Ifc requests over BufIo. Proof: composition of lemmas on writing and reading. For descriptors that do not report ENODATA on write (see C10).
* **C62 A scan imports the client's whole environment** (partial). Model: Ifc environment. Proof: recursion over the packed strings. Partial: exact description of what is imported; a variable with an empty value stops the import (counterexample).
* **C63 Complete reads** (proved). Model: BaseUtil read loop. Proof: induction over the schedule.
* **C64 Kernel command line arguments** (partial). Model: BaseUtil kernel command line. Proof: grammar of words. Presence proved in full; the value is returned with the equals sign in front (counterexample), partial theorem describes it exactly.
* **C65 Numbers from the environment** (partial). Model: BaseUtil numbers. Proof: arithmetic of digits. Partial: digits and strings with foreign characters; the empty string and signed numbers are accepted and min = max disables the range (counterexample).
* **C66 Priorities are as set** (partial). Model: Res priorities. Proof: histories. Fails for resources without parent (counterexample).
* **C67 Iterators go both ways** (partial). Model: Res iterators. Proof: positions in the child list. Only going backwards from the start; counterexample for mixing directions.
* **C68 Questions about what a search would find** (partial). Model: Res search. Proof: as C26. sid_res_search_match for all methods; sid_res_search_match_res for all but SIB and GENUS, for which it always answers no (proved).
* **C69 Relative times of timers do not wrap around** (partial). Model: EvSrc timers. Proof: 64-bit arithmetic. Re-arming proved; creating a timer returns a positive number if the clock cannot be read (counterexample).
* **C70 Lines with a key and a value** (partial). Model: UtilStr key = value lines. Proof: grammar of lines. Exact characterisation for every line. Partial: a line with key and equals sign but no value makes the code read behind the end (C70_counterexample_no_value).
* **C71 Full names tell modules apart** (proved). Model: ModReg and Res paths. Proof: composition of names along the tree. Proved for registry ids and names without slash. The counterexample shows names not being set back after a failed attach. Registries attached bottom-up (never done by the daemon) are outside AtPath's premise.
* **C72 Listings are valid JSON** (partial). Model: Listing over Fmt. Proof: C52 for the calls each listing makes. Versions, statistics and resources proved in full. The dump is partial: a vector beginning with a binary value, or having an empty value behind another, gives invalid JSON (counterexamples). The device listing is partial: if its first record is a readiness or reservation state, a comma is missing (counterexample).
* **C73 systemd is told exactly what is notified** (proved). Model: SrvLnk. Proof: exact text of the notification. Proved for all masks and texts; the value is the precision-limited copy of a line, values are assumed shorter than 2 GiB.
* **C74 Memory handed to the key-value store is freed exactly once** (proved). Model: Kvs with a list of freed memory. Proof: conservation: freed + held by live values = handed over (counts), kept by every create and destroy; with C60 the held part is what the keys hold.
* **C75 A request that is answered succeeds** (proved). Model: Ifc over the buffer and I/O model. Proof: the receive loop on the reset message buffer completes (C08 lemmas), the end of sid_ifc_req accepts it.
* **C76 Modules are told the event the client saw** (partial). Model: `Model/UbrEvent` (ubr.c `_device_add_field`, `_parse_cmd_nullstr_udev_env`, internal/util.c conversions) on top of `Model/Ifc` parsing. Proof: Induction over the variables with the invariant that the attributes are those of the last values so far; the text for the disk sequence by uniqueness of decimal numbers. False as stated in two ways, both proved: a DEVPATH without a slash beyond its first character makes the name NULL + 1, and everything behind a variable without a value is ignored (so a removal can become an unknown event, without disk sequence text). Proved for all environments without these two. Values of SEQNUM, DISKSEQ, PARTN that are not decimal numbers below 2^64 are not specified.
* **C77 The module of a device is the one of its driver** (partial). Model: `Model/UbrMod` (ubr.c `_lookup_mod_name`, `_owner_name_from_blkext`, `_get_base_mod_name`; base/util.c `sid_util_sysfs_get`). Proof: Induction over the lines of the table as the kernel prints it; the remembered name by the write protection of C30. False for devices of the extended range that are no NVMe devices, both proved: for a partition the module of the whole disk is dropped because a comparison is the wrong way round, and if the whole disk has such a number as well the lookup calls itself until the stack is used up; whole disks of that range have no module. Proved for all tables of drivers for the other devices.
* **C78 Output as assignments reads back as the fields written** (partial). Model: Model/Fmt.lean in the formats of assignments and tables. Proof: Induction over the nestings of calls (Spec/FmtEnv.lean `Says`): the output is one line per assignment; splitting at newlines and at the first equals sign gives the assignments back. Lists of numbers and of elements: counterexamples.. Partial: holds for lists of texts; in lists of numbers the numbers are not written at all and the first field of a list of elements is read as part of the value of the list (C78_numbers_lost_counterexample, C78_elements_counterexample). No escaping exists, so values must not contain newlines.
* **C79 udev is told exactly the variables set during a scan** (partial). Model: Model/UbrReply (text of the reply, `usid`), Model/UbrSync (export), Model/UbrDb (sets). Proof: Invariant over histories (`Told`): index = flags for all variable keys, record of every variable = last entry of the log; then the export loop over the index; splitting the reply at its end marks and reading lines back.. Histories are imports of the request, sets and unsets by modules in the udev namespace (accepted or without effect), all other calls of modules, and anything that leaves the udev namespace alone. C79_reply_is_what_was_set covers the reply of a stage, C79_next_stage that stages and commands do not influence each other, C79_set_to_printed_partial the way to the lines printed by usid, for names without = and newline and values without newline; C79_newline_counterexample shows that with a newline a module has udev set another variable, C79_single_byte_counterexample that a value of one byte given without end mark is not told.
* **C80 The ready state of a device-mapper device follows its events** (partial). Model: Model/Dm (dm.c cookie, sysfs properties, ready state) as an environment of Model/Scan (the phases of a scan) with Model/DevState (permissions of phases). Proof: The stages of a scan in closed form; then refinement to the function `after` of Spec/Dm by induction over histories of events. Proved: refinement of all histories to Spec.Dm.after. False for devices that get the number of a removed one (nothing is noted at removal: the new device keeps the old state before it has a table) and for devices first seen in an event that is refused (core makes them public): counterexamples.
* **C81 udev is told the flags of the cookie of a device-mapper device** (partial). Model: Model/Dm `aExit`, with the export of Model/UbrSync. Proof: What is set in the first stage in closed form, composed with C79. Proved for events with a cookie. False for events without one, e.g. synthetic events: no flag is set even for private devices (counterexample, general). Hence udev rules treat a private device like a public one after `udevadm trigger`, unless the request has the flags.
* **C82 The cookie of a device-mapper event is completed exactly once** (partial). Model: Model/Dm `actionCurrent` through both stages. Proof: Induction over histories: the list of completed cookies. Proved for events whose device can be read in sysfs (or removals), each in a worker process of its own. False otherwise: if sysfs cannot be read the cookie is never completed; a worker that serves two commands completes the cookie of the first once more (counterexamples).
* **C83 Logical volumes are told to udev under the names LVM gave them** (partial). Model: The submodule for LVM in Model/Dm (splitting of names, claim of a device, records kept per device and per worker) as part of the whole scan; Spec/DmLvm composes the names. Proof: Round trip of composing and splitting by induction over the names; induction over histories of events for the claim; composed with C79 up to the records udev is told. Counterexamples for a device in place of a volume and for a reused worker.. Proved for all names LVM permits and all histories of a volume: the names are found again (C83_names_found) and told to udev (C83_names_told_partial). Missing: layers LVM appends without a hyphen (names beginning with _) are part of the volume name. Other devices are treated as without the module if each command has its own worker (C83_other_devices_partial). False otherwise: a device that takes the place of a volume, or is served by a worker that served a volume, is taken for a volume; its scan fails if its name has no hyphen (C83_replaced_counterexample, C83_same_worker_counterexample).
* **C84 A logical volume that is being initialised is not to be used until LVM says it is done** (partial). Model: The decisions of the dm module and of the submodule for LVM about the ready state in Model/Dm; Spec/DmLvm has the state after an event. Proof: Refinement to the specification by induction over histories of events; consequences of the specification. Counterexamples for events without cookie, private and flat volumes.. The state follows the specification afterLvm for all histories (C84_ready_state). The volume is hidden from the cookie that says so on (C84_initialising) as long as events have cookies (C84_hidden_until_initialised_partial). False: an event without a cookie, e.g. udevadm trigger, makes the volume public (C84_no_cookie_counterexample), a private volume becomes public when it is initialised (C84_private_counterexample), a flat one is never hidden (C84_flat_counterexample).
* **C85 Disks are claimed for multipath exactly when multipath says so, and a disk once left to others is not taken back lightly** (partial). Model: Model/Mpath: the module dm_mpath over the database of Model/UbrDb, libmpathvalid as an oracle; histories mix scans of any devices and calls of other modules. Proof: Induction over histories with an invariant tying the record of the device to the answers so far (Spec/Mpath `Released`), key isolation from C29, the command line from C64, composed with C79 up to the reply. Counterexample for partitions.. False of partitions: the module records the answer in its own namespace for the device, under the identifier of the device, but for a partition looks in the namespace of devices under the number of the disk, so partitions of claimed disks are never told (C85_partition_counterexample). Guards of the disk theorems: no ":" in names of modules and devices (see C29); no other module acts under the name of this one or of the core. The value of nompath=... is never looked at, although the code means to. libmpathvalid is taken to set its result pointer on every call; the module reads the pointer uninitialised otherwise.
* **C86 A module serving a partition can read what was recorded for the disk the partition is on** (partial). Model: Model/Mpath `getDiskPart` over the database of Model/UbrDb. Proof: Equality with a plain get for the device identified by the number of the disk; frame argument over histories of calls for the counterexample.. False as stated: the function looks under the number of the disk, but records in the namespace of devices are kept under the identifier of the device (C86_not_found_counterexample: nothing is ever found unless a device is identified by that number). C86_reads_disk_partial: it works if the identifier of the disk is its number.
* **C87 What was found on a device is told to udev under udev's names and without special characters** (partial). Model: Model/Blkid.lean models `_add_property` and `_blkid_scan_next` over the database; libblkid's findings and its two rewriting functions are parameters, also what is left in the buffer behind the encoded text. Proof: The sets are shown to be steps of serving the command (Serve of C79, extended to values with bytes behind the end of the text); what they say is compared with a table of udev's variables and forms (Spec/Blkid.lean). Partial: ID_FS_UUID and ID_FS_UUID_SUB are told as they are on the medium although the rewritten text was computed (C87_uuid_counterexample for every such identifier, C87_newline_counterexample: another variable is set by it); the arguments of ID_FS_UUID_ENC are shifted, so that 224 bytes with leftovers of the stack are stored and other modules may not read it (two counterexamples). Partial: holds if identifiers have nothing to replace in them and texts fit the buffers. Counterexamples: every identifier the library would change is told as it is; with a newline in it udev reads another variable; of the encoded identifier 224 bytes with leftovers of the stack are kept; other modules cannot read it. What libblkid finds and how it rewrites texts are parameters.
* **C88 The module called for the contents of a device is the one for what is on it now** (partial). Model: The record SID_NEXT_MOD, the table of blkid-type-mapper.gperf and the reading in `_cmd_exec_scan_a_next`. Proof: Histories of probes and of calls of other modules: the name read is that of the last type with a module (induction over the history, keys by C28/C29). Partial: the record is never unset, so that a device whose contents are gone, of a type without module or unreadable still gets the old module (C88_stale_counterexample, for all states). Partial: the module is that of the last type found that has a module, after any history in which other modules leave the record alone. Counterexample for all states: a probe that finds nothing, an unknown type, or fails, leaves the module of the earlier contents.
* **C89 What a device lies on is recorded as the kernel shows it** (partial). Model: SysDeps (reading of sysfs) on UbrGroup (the update of the records). Proof: the numbers read are those shown (lemmas about lines and paths), then C49 for the update; the search of C50 finds them. False if the directory cannot be listed (success, old record kept), for devices on partitions (no number, left out), and for a partition of a disk without number (use of freed memory).. Proved for devices whose number the kernel shows; counterexamples: directory that cannot be listed (success reported, old record kept), devices on partitions (left out), partition of a disk without number (log message uses freed memory).
* **C90 usid tells udev the truth about the daemon and passes on what it replies** (partial). Model: Model/Tools.lean: usid.c on top of the client library of Model/Ifc.lean, with connecting added. Proof: The reply determines what the accessors say (C53), an answered request does not fail (C75); end to end with C79: from the variables set while a scan is served to what udev reads. Inversion of every path of the tool for what status and exit status mean. Partial: a reply without data (of every checkpoint) is called incompatible (C90_counterexample_no_data, for all such replies); names and values with newlines as in C79; `usid active` succeeds whatever the answer is (C90_active_says). Partial because the property is false of replies without data: C90_counterexample_no_data shows that a daemon answering a checkpoint with success (a bare header) is called incompatible. C90_other_protocol: variables of a daemon with another protocol are passed on nevertheless. C90_scan_end_to_end_partial needs names and values without newlines (C79). The library functions are those of C53, C61 and C75.
* **C91 sidctl prints what the daemon sends, whole, and succeeds only then** (proved). Model: Model/Tools.lean: sidctl.c on top of Model/Ifc.lean; `sidctl version` is in Model/Listing.lean. Proof: As C90; the options by induction over their list. A text without the final NUL (which the daemon always adds) is outside the theorems: the tool would read behind the data (outcome ub of the model).
* **C92 What is to be kept survives a restart of the daemon** (partial). Model: UbrGen (file and start) on UbrCodec and UbrSync. Proof: C37 for the bytes; invariant of the import loop over the records: a key without a record gets the one read, archived copies are removed only by a record without archive; iff for every key, then for `sid_ucmd_kv_get` by the form of its keys. Partial: reservations are lost (C92_counterexample_reserved, for all), files of more than 64 MiB are refused and all is lost (C92_counterexample_size, for all). The full statement is C92_restart_partial for every key and record; false for reservations (records without data) and for databases of more than 64 MiB, shown for all such cases.
* **C93 A crash while the database is saved leaves the old or the new one** (partial). Model: Model/Dump.lean: the actions on the file (truncate, resize, copy, size prefix) of the linear buffer with file backend. Proof: Invariant: until the last action the size prefix is zero; the complete file is the message and zeros, which read the same (C37). Killed within a copy: each byte old or new. Partial: in between the database is lost (C93_counterexample_lost, for every old and new database); two workers give a mixture (C93_counterexample_two, a run). False as stated: between the first and the last action of the worker nothing is left (C93_counterexample_lost for all databases) and two workers mix their databases (C93_counterexample_two). Proved: old, nothing or new, never a part of one, at every moment and for every order of the bytes.
* **C94 A logged message is shown according to verbosity, once, with its prefixes, text and error** (partial). Model: Model/Log.lean: log.c, the three targets with the line buffer (its old contents arbitrary), macros of resources, options of the daemon. Proof: Invariant over all later calls (verbosity, target, prefix, variables of the targets), then exact output per target; loops over prefixes by induction on the list. Partial: with two prefixes or more syslog loses the text (C94_counterexample_syslog for all such messages, C94_counterexample_resource: all messages about resources), errors with number at debug level (C94_counterexample_error_number), no error text in journal and syslog (C94_counterexample_journal_errno), long prefixes (C94_counterexample_journal_prefix). Standard streams: proved in full (C94_standard). Journal and syslog partial: the text is lost in syslog with two prefixes or more, error descriptions are not output; C94_counterexample_* state these for all messages.
* **C95 Which volume group is activated after a physical volume has been scanned** (partial). Model: Model/LvmNext.lean: the `next` phases of the submodule for LVM (lines of pvscan, records, vgchange) and the choice of the submodule; programs are their output. Proof: Tokens at newlines are the lines of a specification cutting texts at newlines (strong induction), then induction on the lines; arguments by C48, lines by C70. Counterexamples: lines of 2048 characters end the reading, an empty value is undefined behaviour, a name with blanks becomes several volume groups. Proved for all outputs whose lines are at most 2047 characters long and have a value, and names without blanks and quotes; what happens otherwise is shown by the counterexample theorems.
* **C96 Iterating a key-value store reports what gets report** (partial). Model: Model/KvsIter.lean: the iterators of a store over either backend, and the loop of its users; a NULL data pointer ends the loop. Proof: the tree's and the table's iterations (C17, C12) are lifted to the store by the ownership invariant of C19 (every stored address is a live value); a reference to NULL hides itself and all keys after it (counterexample), a hash store ignores prefix and range (counterexample). Exact for every history up to the first reference to NULL (C96_whole, C96_prefix); C96_counterexample_null: a reference to NULL hides itself and every later key; C96_counterexample_hash: a hash store ignores the prefix; ranges with a start that is not stored: see C17. Outside transactions.
* **C97 Database statistics are exact** (partial). Model: Model/KvsIter.lean: the four sizes of a value, the sums over the iteration, the comparison with the tree's data size. Proof: invariant over all operations: the size stored with an address is the size of the value there; the tree's data size is the sum over its entries (C59); merged references and references to NULL cause a mismatch (counterexamples). Guards: no vector given by reference and merged, no reference to NULL; both guards are needed (C97_counterexample_merged, C97_counterexample_null). meta_size not modelled.
* **C98 A worker gets its ends of its channels, and an external program nothing else** (partial). Model: Model/WrkFds.lean: tables of descriptors, lowest free descriptor first and below a limit; pipe, socketpair, fork, dup2, close, exec; creation of channels with undoing, closing of what is no channel, redirection. Proof: exact tables: what a process has is what it had plus the listed ends (relation Plus, composed and cut along the code); a free descriptor asked for as target is closed by the redirection itself (counterexample). False if the descriptor number asked for is free in the creating process: pipe() may return that very number, dup2 then does nothing and the following close() closes it, so that the program runs without it (C98_closed_stdin_counterexample). Proved if the numbers asked for are open in the creating process, as standard streams usually are.
* **C99 An end of a channel is held by its process only, and no descriptors pile up** (partial). Model: Model/WrkFds.lean: the daemon with its workers, each with its own table, and the events creating, starting, ending, noticing the end. Proof: invariant over all histories: exact tables of all processes; ends are made once (numbers of wires grow); a worker forked but not yet running still has the daemon's ends for other workers (counterexample). The daemon's end is also held by workers that have been forked and have not begun to run (C99_new_worker_holds_counterexample); all else holds without restriction.
* **C100 The daemon's processes tell each other exactly what a command waits for** (partial). Model: Model/UbrSys.lean: all workers with their commands (each as in C42), the channels to the main process and back, the receiving functions of both sides, the udev monitor. Proof: invariant over all histories, worker by worker: what was exported is taken over or on its way, what was taken over is acknowledged, on its way back or lost, and so on; from it every command lives as C42 assumes; the order of what is seen by induction over the trace; two commands of one kind in a worker and a lost acknowledgement break it (counterexamples). Guard: no worker gets two commands of the same kind (a client could send two scans through one connection: acknowledgements are delivered by the name of the command, so both go to the first, which starts its second stage too early, and the second waits for ever: C100_counterexample_two_scans). At rest: no message lost (an acknowledgement that cannot be sent is only logged, the scan then waits without timeout: C100_counterexample_lost_acknowledgement). Assumed of udev: an event carries a session id only once, after the response to the scan; the id starts with a dot, so udev does not store it.
* **C101 Records keep their values when they are marked for synchronisation** (partial). Model: Model/UbrIdx.lean: the database of modules on the store it really uses: values in memory by address, the B+ tree of Model/BpTree.lean, the index as aliases in that tree; keys and permissions as in UbrDb. Proof: refinement: an invariant relates tree, values in memory and the plain map of UbrDb through the abstract store with aliases of C18 and its guard; every call preserves it; the walk by the iterator theorem of the tree; taking a record out of the index exchanges records (counterexample for all names). The store answers as a plain map for all reservations of the main process (unconditional, C101_main), and for all calls in workers that never overwrite a marked record by an unmarked one; the same guard for the index and for memory. Without the guard the statement is false of the code: C101_counterexample_exchanged proves for every module and all names a < b that set a with SYNC, set b, set a without SYNC leaves a reading the value of b and b that of a: removing the alias removes the first pointer to the same record in the leaf, which is that of the key itself, so that all pointers between are shifted by one. Not covered: groups of records changed in transactions.
* **C102 A module asking for the aliases of a device gets exactly those it has** (partial). Model: Model/UbrAlias.lean: the call with its arguments and all it writes, on the records of UbrGroup. Proof: invariant of C49 over all histories, the keys taken apart as in C50; errors are lost and the number is not written (counterexample for all stores), categories with a colon are mistaken for others (counterexample). Exact for devices that are in some group or have some alias, readable by the module, if no name has a colon. Missing because the code differs: errors of the lookup are overwritten by success and the number is not written when nothing is found (C102_counterexample_silent, for every store), and an alias of category x:y is returned for category x and not for x:y (C102_counterexample_colon).
* **C103 The memory of arrays returned to modules is sound** (partial). Model: Model/UbrStrv.lean: memory as blocks of bytes (never written, byte of a pointer, character), malloc with any pattern of failures, free; the functions for arrays and the recursive search on it. Proof: the layout of an array as invariant of each loop that fills it; refinement of the search on lists (C50) by induction over the depth, with the blocks in use in each loop; for empty arrays the code reads before their start (counterexample). Proved for names that are strings and not empty, whenever the search on lists (C50) is defined. Missing because the code differs: an array without strings is read before its start by the search for base or top devices and makes the other searches report ENOMEM (C103_counterexample_empty).
* **C104 The store holds exactly the memory its contents take** (proved). Model: Model/BpMem.lean: memory of the tree: answers of malloc, counted key objects, nodes made in advance, blocks, meta_size; the steps each call takes, in order. Proof: the references of a key equal the places it has in the tree: each step of insertion and deletion along a path changes both by the same amount (weights over the tree, induction over the path); failing allocations undo all that was made; destruction by induction over what is left to do. Sizes and counters are integers that do not wrap; blocks are counted, not addressed.
* **C105 Starting sid gives one server on its socket, detached if in the background** (partial). Model: Model/Start.lean: a process with session, terminal, directory, umask and descriptors; fork, setsid, open, dup2, close, socket, bind, listen with any answers; sd_listen_fds and sd_is_socket_unix as documented. Proof: closed form of the loop that closes descriptors (induction), lowest free descriptor, then case analysis of the set-up; the event loop keeps descriptor 3 taken, so errors of sd_is_socket_unix cannot be taken for a yes. Partial: for a background start, standard streams closed by the caller end up closed and the socket takes descriptor 0, a failing setsid goes unnoticed, descriptors at or above the limit stay open; a background start never uses a passed socket; a failure to set up the daemon ends with exit status 0 (a counterexample theorem for each).
* **C106 A hash table holds exactly the memory its entries take** (proved). Model: Model/HashMem.lean: every call of the hash table with allocations that may fail, blocks and bytes in use. Proof: sums of a weight over all nodes (one, or the size): each change of a chain changes table and memory by the same amount; invariant over all histories; refinement of Model/Hash.lean when nothing fails. All of hash.c that allocates or frees.
* **C107 After a start the database has the identifier of this boot** (partial). Model: Model/UbrBoot.lean: fgets on the contents of the file and a buffer with any contents, the record, and the start with database file, generation number (UbrGen) and boot identifier. Proof: induction over the line read, the store at each other key; a short line is stored with newline and old contents of the buffer, an old record without end is read past it (counterexamples). Partial: the kernel file starts with 36 characters, and an old record is a terminated string (a counterexample theorem for each).

## Axioms of each theorem

no axioms (9 theorems): C04_create_zero, C10_enodata_counterexample, C11_zero_fill_counterexample, C25_cycle_counterexample, C25_failed_creation_counterexample, C44_counterexample_recorded_state, C66_no_parent_counterexample, C67_forth_and_back_counterexample, C71_attach_result.

`Classical.choice`, `Quot.sound`, `propext` (428 theorems): C01_base64_round_trip, C02_base64_ignores_foreign, C02_base64_round_trip_with_junk, C03_encoded_len_zero, C03_encoded_len_exact, C03_decode_refusals, C04_bitmap_is_set_of_positions, C05_get_data_returns_content, C05_add_returns_start_offset, C06_allocation_within_limit, C06_plain_unconditional, C06_add_accepted_iff, C07_adds_refused_while_bound_partial, C07_memory_stable_while_bound_partial, C08_framed_message_survives_fragmentation, C08_enough_reads_complete, C08_truncated, C08_truncated_read, C08_sender_to_receiver, C09_reads_stay_within_message, C09_all_messages_delivered, C10_write_all_exact, C10_write_all_terminates, C10_vector_write_all_exact, C11_items_kept_partial, C11_add_appends_partial, C11_get_data_from_bad_address, C12_hash_is_finite_map_partial, C12_other_keys_untouched, C12_add_keeps_old_length_counterexample, C12_update_with_additions, C12_created_size, C12_huge_hint_never_returns, C13_iteration_complete, C15_tree_is_map, C15_update_sees_stored, C16_tree_balanced, C17_whole, C17_prefix, C17_range_partial, C17_range_covers, C17_range_start_counterexample, C18_aliases_partial, C18_reference_count, C18_delete_removes_one_name, C18_delete_alias_counterexample, C19_backend_bptree, C19_backend_hash, C19_get_reports_history, C19_get_after_set, C19_get_after_unset, C20_refused_set, C20_accepted_set, C20_unset, C20_seen_in_transaction, C21_rollback_partial, C22_commit_partial, C23_set_archives, C23_unset_archives, C24_children_in_order, C24_iteration_in_order, C25_resources_live_as_specified, C25_destroyed_with_the_last_reference, C26_search_sound_and_complete_partial, C26_wide_search_exact, C27_counter_bounds_calls_partial, C27_at_most_n_more_partial, C28_decompose_compose, C28_read_back, C28_unique, C29_isolation_partial, C29_get_finds_set, C29_apart_from_daemon_partial, C29_counterexample, C29_names_of_daemon_refused, C30_write_protection_partial, C30_owner_and_core, C30_history_partial, C30_denied_set_crashes, C30_confused, C30_counterexample, C31_read_protection_partial, C31_owner_and_core, C31_reads_own_write, C32_exclusive, C32_owner_can, C32_history, C32_global_set_partial, C32_counterexample, C33_step, C33_denied, C33_update, C34_accumulated, C35_merge_partial, C35_sent, C35_converge_partial, C35_commute_partial, SyncExample.C35_counterexample, C36_unset, C36_newest_partial, C36_any_order_partial, C36_never_older, C36_old_ignored, SyncExample.C36_counterexample, C37_roundtrip, C37_injective, C37_export, C37_load_partial, CodecExample.C37_counterexample, CodecExample.C37_counterexample_worker, C38_export_partial, C38_once_partial, C38_succeeds, SyncExample.C38_counterexample, C42_response_partial, C42_response_after_ack_partial, C42_yield, C42_progress, C42_ends, C42_finished, C42_no_crash_partial, C43_executed_exactly_partial, C43_executed_in_order, C43_counterexample_no_answer, C43_nothing_behind_short_header, C45_in_order, C45_all_delivered, C45_before_failure, C45_send_succeeds, C45_external_output, C45_external_input, C46_lookup, C46_load_twice, C46_no_duplicates_partial, C46_directory, C46_counterexample_directory_twice, C46_counterexample_slash, C47_history, C47_memory, C47_remove, C47_notify_partial, C47_notify_link_partial, C47_counterexample_arguments, C47_merge_partial, C47_counterexample_merge, C47_resource, C48_words, C48_words_fail, C48_join, C48_counterexample_overlap, C49_bidirectional, C49_total, C49_add_del, C49_alias, C49_destroy, C49_unnamed_refused, C49_rename, C49_dependencies, C49_main_partial, GroupExample.C49_counterexample, GroupExample.C49_counterexample_main, C50_immediate, C50_down_partial, C50_up_partial, C50_cycle, C50_counterexample_plain, StackExample.C50_counterexample_unknown, C51_choice_partial, C51_total_partial, C51_again_partial, C51_main_partial, C51_kept_partial, IdentExample.C51_counterexample_colon, IdentExample.C51_counterexample_long, IdentExample.C51_counterexample_two, C52_nested_partial, C52_meaning, C52_injective, C52_counterexample_bool, C52_counterexample_quote, C52_counterexample_forged, C53_command_names_one_to_one, C53_result_is_the_reply, C54_device_number_accepted_partial, C54_large_minor_refused_counterexample, C54_out_of_range_refused, C55_first, C55_start_partial, C55_kept, C55_workers, C55_history_partial, C55_increasing_partial, GenExample.C55_counterexample_wrap, GenExample.C55_counterexample_refused, C56_multi_values, C58_plain_read_appends, C59_accounting, C60_values_released_once, C60_after_rollback, C60_after_commit, C61_scan_request_on_the_wire, C61_checkpoint_request_on_the_wire, C61_plain_request_on_the_wire, C62_empty_value_counterexample, C63_read_all_exact, C64_argument_found_iff_present, C64_argument_value_partial, C64_value_has_equals_sign_counterexample, C65_env_number_partial, C65_empty_and_negative_counterexample, C66_priority_set_partial, C67_backwards_partial, C68_match_query, C68_match_resource_query_partial, C68_siblings_never_found_counterexample, C70_key_value, C70_nodata, C70_counterexample_no_value, C70_refused_partial, C71_loaded, C71_attached, C71_counterexample_failed_attach, C72_version, C72_ctl_version, C72_dbstats, C72_resources, C72_dump_partial, C72_devices_partial, C72_counterexample_binary, C72_counterexample_empty, C72_counterexample_first, C72_long_identifier, C73_lines, C73_states, C73_nothing_else, C74_handed_over_memory_freed_once, C74_freed_once_after_rollback, C74_freed_once_after_commit, C75_answered_request_does_not_fail, C75_answered_request_succeeds, C76_event_as_described_partial, C76_disk_sequence_text, C76_names_round_trip, C76_path_without_directory_counterexample, C76_cut_off_counterexample, C76_removal_lost_counterexample, C77_module_of_driver_partial, C77_extended_partition_counterexample, C77_extended_disk_counterexample, C77_module_remembered, C78_assignments_read_back_partial, C78_same_output, C78_numbers_lost_counterexample, C78_elements_counterexample, C78_table_fields, C78_table_headings, C79_reply_is_what_was_set, C79_next_stage, C79_usid_prints_partial, C79_set_to_printed_partial, C79_newline_counterexample, C79_single_byte_counterexample, C80_cookie_read, C80_cookie_refused, C80_ready_state, C80_resume_decides, C80_suspended, C80_no_cookie_no_change, C80_unconfigured_until_resume_partial, C80_recreated_counterexample, C80_refused_event_counterexample, C81_flags_told_partial, C81_name_told, C81_no_cookie_counterexample, C82_completed_once_partial, C82_unreadable_counterexample, C82_same_worker_counterexample, C82_volumes_partial, C83_names_told_partial, C83_replaced_counterexample, C83_same_worker_counterexample, C83_other_devices_partial, C84_ready_state, C84_initialising, C84_hidden_until_initialised_partial, C84_initialised, C84_no_cookie_counterexample, C84_private_counterexample, C84_flat_counterexample, C84_flags_told, C85_turned_off, C85_disk_partial, C85_remembered_partial, C85_reply_partial, C85_partition_counterexample, C85_partition_partial, C86_reads_number, C86_reads_disk_partial, C86_not_found_counterexample, C87_told_partial, C87_printed_partial, C87_uuid_counterexample, C87_newline_counterexample, C87_leftover_counterexample, C87_unreadable_counterexample, C88_types, C88_last_known_partial, C88_found, C88_stale_counterexample, C89_disk_partial, C89_partition, C89_removed, C89_asked_partial, C89_counterexample_unlisted, C89_counterexample_on_partition, C89_counterexample_freed, C90_told, C90_failed, C90_counterexample_no_data, C90_other_protocol, C90_no_daemon, C90_active_means, C90_inactive_means, C90_cannot_connect, C90_incompatible_means, C90_success_means, C90_active_says, C90_version_says, C90_misused, C90_scan_sends, C90_ends, C90_scan_end_to_end_partial, C91_prints, C91_prints_database, C91_failed, C91_no_daemon, C91_success_means, C91_sends, C91_misused, C92_restart_partial, C92_read_partial, C92_counterexample_reserved, C92_counterexample_size, C93_killed_partial, C93_done, C93_counterexample_lost, DumpExample.C93_counterexample_two, C94_standard, C94_none, C94_journal_partial, C94_counterexample_journal_errno, C94_counterexample_journal_prefix, C94_syslog_partial, C94_syslog_prefix, C94_counterexample_syslog, C94_counterexample_resource, C94_resource_cause, C94_counterexample_error_number, C94_no_handle, C94_start, C95_records_partial, C95_activation_partial, C95_claims, C95_not_claimed, C95_failure, C95_counterexample_long_line, C95_store_failure, C95_counterexample_blank, C95_counterexample_no_value, C96_whole, C96_prefix, C96_range_partial, C96_whole_partial, C96_prefix_partial, C96_counterexample_null, C96_hash_partial, C96_counterexample_hash, C97_statistics_partial, C97_counterexample_null, C97_counterexample_merged, C98_created_if_room, C98_external_program_partial, C98_closed_stdin_counterexample, C100_life_partial, C100_taken_over_before_response_partial, C100_told_partial, C100_at_rest_partial, C100_nothing_left_partial, C100_no_crash_partial, C101_main, C101_get_partial, C101_index_partial, C101_memory_partial, C101_counterexample_exchanged, C102_exact_partial, C102_refused, C102_counterexample_silent, C102_counterexample_colon, C103_search_partial, C103_found, C103_alias, StrvExample.C103_counterexample_empty, C104_exact, C104_all_or_nothing, C104_enough, C104_destroy, C105_serves, C105_not_inherited, C105_background_partial, C105_counterexample_streams, C105_counterexample_session, C105_counterexample_limit, C105_activated, C105_counterexample_activated, C105_single, C105_no_leak, C105_status_partial, C105_counterexample_status, C105_starts_foreground, C105_starts_background, C106_exact, C106_all_or_nothing, C106_enough, C107_current_partial, C107_failed, C107_start_partial, C107_counterexample_short, C107_counterexample_old.

`Quot.sound`, `propext` (82 theorems): C03_encode_refusals, C04_out_of_range_changes_nothing, C04_truncation_beyond_2_37, C06_reset_init_overflow_counterexample, C06_limit_without_step_is_undefined, C07_lower_get_data_counterexample, C07_refused_reset_counterexample, C07_empty_unbind_keeps_mark, C11_bound, C12_nested_add_counterexample, C14_lists_hold_their_sequences, C14_no_stray_writes, C14_safe_iteration, C15_orders, C21_set_twice_counterexample, C21_archive_twice_counterexample, C21_unset_archive_counterexample, C22_unset_then_set_counterexample, C37_aligned, CodecExample.C37_reservation, C39_ready_moves_partial, C39_repeated_request, C40_reserved_moves_partial, C40_repeated_request, C41_scan_course, C41_exit_runs_once, C42_one_response, C42_nothing_after_yield, C43_executed_only_if_allowed, C43_counterexample_unknown_command, ConnExample.C43_counterexample_short_header, C44_exclusive, C44_always_fresh, C44_not_used_after_end, C44_idle_pick, C44_counterexample_worker_left_over, C46_load_registered, C46_unloaded, C46_symbols, C46_file_name, C47_takers, C48_words_unique, C48_unclosed, C48_fits, C48_used_if_fits, C48_copy_partial, C48_copy_needs_room, C48_prefix_suffix, C48_needle, C48_last_occurrence_partial, C48_copies, C57_remove_updates_stack, C57_current_phase_default, C57_call_order, C57_calls, C57_calls_when_ready, C57_calls_next, C57_calls_init, C57_calls_exit, C57_calls_error, C57_calls_remove, C57_scan_leaves_states_processed, C62_environment_imported_partial, C69_rearm_relative_time, C69_create_relative_time_partial, C71_distinct, C93_no_fault, C93_not_begun, C94_options, C95_chosen, C98_ends_of_channels, C98_failure_leaves_nothing, C99_daemon_descriptors, C99_no_leak, C99_worker_descriptors, C99_proxy_paired, C99_worker_end_private, C99_ended_worker_noticed, C99_proxy_end_private_partial, SysExample.C100_counterexample_two_scans, SysExample.C100_counterexample_lost_acknowledgement, C106_not_created.

`propext` (28 theorems): C07_read_moves_bound_memory_counterexample, C09_big_initial_size_counterexample, C10_empty_items_never_return, C11_zero_fill_prefix_undefined, C26_wide_crosses_boundary_counterexample, C27_child_counterexample, C27_wrap_counterexample, C39_refused_changes_nothing, C39_refused_outside_phases, C39_unread_state_counterexample, C39_denied_write_counterexample, C40_refused_changes_nothing, C40_refused_outside_phases, C40_unread_state_counterexample, C41_bad_stage, CmdExample.C42_counterexample_second_stage, CmdExample.C42_counterexample_failed, CmdExample.C42_counterexample_early_message, CmdExample.C42_counterexample_crash, CmdExample.C42_counterexample_late_message, C48_counterexample_copy, C48_counterexample_beginning, C57_next_layer_needs_public, C57_current_layer_needs_ready, C58_step_zero_counterexample, C69_clock_failure_counterexample, C83_names_found, C99_new_worker_holds_counterexample.
