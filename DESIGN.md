# Design of the abl.vpath model

The properties are in `properties.jsonl`, what is proved of each in `MANIFEST.json`, the axioms behind every
theorem in `AXIOMS.md`, and the wrong programs the theorems were tried against in `seeded/LOG.jsonl`.

## Trusted base

1. **The Lean 4 kernel** (4.33.0) and, for a few list and finset facts, the Mathlib modules imported by name.
2. **Axioms**: at most `propext`, `Classical.choice`, `Quot.sound` (see `AXIOMS.md`; many theorems need fewer).
   No axiom is declared in this project; there is no `sorry`, `admit`, `native_decide` or `bv_decide`.
   Concrete cases are evaluated by `decide +kernel`, that is, by the kernel.
3. **The reading of the source.** The theorems are about the model. Every definition of the model cites the lines it
   was read from; nothing of the repository was run.
4. **Assumptions about what is not in the repository**, stated beside the definitions that make them:
   * CPython: strings are lists of Unicode scalar values (no lone surrogates); dictionaries keep insertion order;
     single operations on a dictionary and `list(d.items())` are atomic under the interpreter lock (only for C57 and C90–C92, which also take a method call on a BytesIO for atomic).
   * `re`: the three patterns of uriparse.py:68-77 and fs.py:235 are written as scanners (`findInner`, `reScheme`, …).
   * `urllib.parse.quote_plus`/`unquote_plus`, `str.encode`/`bytes.decode` for UTF-8, `io.BytesIO`, `sorted`,
     `str.strip`, `int()`/`str()` of decimals, `posixpath.normpath`: definitions in `Verif/Py`, `Verif/Uri/UrlJoin`.
   * `fnmatch.fnmatch` and the hash function are parameters: C53 and C40 hold whatever they are.
   * `zipfile.ZipFile`: the contract in the head of `Verif/Zip/Model`.
   * `os`, `shutil`: the definitions of `Verif/Any/Disk` (one volume, symbolic links, at most 40 of which are followed, no
     permission checks). `shutil.move` there is `os.rename` and, if that fails, what the library does instead; copying a
     directory and removing it is assumed to leave what a rename leaves. `Verif/Local/Model` has its own small
     operating system without links (C65, C66, C68, C69).
   * `threading.Lock`: acquire, release, and who holds it.

## Layers

| Directory | what it models | source |
|---|---|---|
| `Py` | string, dictionary, byte and sorting primitives; exceptions as values | standard library |
| `Uri` | urisplit, UriParse, URI(), the string methods of BaseUri, urljoin | uriparse.py, simpleuri.py, fs.py:178-516 |
| `Mem` | heap of files, directories and links; path lookup; methods of MemoryFileSystem; handles; `with_connection` | memory.py, fs.py:219-230, 519-823 |
| `Gen` | makedirs, walk, copy, move, remove, glob, md5 on top of the memory backend, through real URI objects | fs.py:198-214, 519-801, 896-1026 |
| `Any` | the same algorithms over a table of backend operations; the table for memory and local files together, and for those and zip archives; the same with failing calls; a plain file system to compare with (`Any/Plain`, `Any/Many`, `Any/Says`: nothing of the repository); open files of both backends (`Any/Files`, with the description of C118); loops over a walk (`Any/Steer`); archives that are files of the other backends (`Any/Arc`, `Any/Pack`); one table of operations inside another one (`Any/Part*`), and programs with URIs of any text (`Any/Reqs`) | fs.py:198-214, 519-801, 896-1026, localfs.py, zip.py |
| `Conc` | the memory backend again, as programs of single accesses to shared objects; threads and schedules; `Conc/Seq` and `Conc/Calls` prove that without interruption they are the functions of `Mem`; on top of them makedirs, walk, copy, move, remove, glob and md5 (`Conc/Op`), which `Conc/OpSeq` relates to `Gen` | memory.py, fs.py:198-214, 519-801, 896-1026 |
| `Reg` | ConnectionRegistry: one thread; many threads; the cleaner thread and shutdown; loading the backends (`Reg/Plugins`) | fs.py:21-175, 1127-1135 |
| `Lock` | `with p.lock()` by many threads; statements inside each other, left by exceptions (`Lock/Several`) | memory.py:257-281 |
| `Zip` | the zip backend | zip.py |
| `Local` | move, modes, WorkingDirectory, TempFileHandle over a small operating system | localfs.py, misc.py |
| `Spec` | vocabulary of the statements that does not use the model's functions: file systems as maps from physical paths to objects (`Spec/Namespace`), URIs by their parts (`Spec/Uri`), a sample state (`Spec/Sample`) | – |
| `Props` | the property theorems, each with a concrete case | – |

### How state and exceptions are modelled

* `M α := World → Except PyErr α × World`: what was done before an exception stays done. `World` has the heap
  (`node`, `next`), the clock (`clock` is an arbitrary function of the number `tick` of readings so far – not even monotone),
  lock state, fault hooks and the memory connections. Handles are object identities, so removal does not invalidate them.
* A `World` is `Reachable` if a history of API calls (`Mem/Reach`, all of them, with any arguments, whether they raise
  or not) leads to it from the empty state. Properties of states are proved for all reachable states (C21, C38, C58, …).
* Path lookup with links is a recursion with the code's own counter `linklevel` (at most 32). The specification of it is
  the inductive relation `Goes` (resolve component by component), which knows nothing of a limit; C22 relates them.
* The recursion depth of Python (walk, copy, makedirs, recursive remove) is a number argument; running out of it is
  `recursionError`. Theorems hold for every sufficient depth and say which is sufficient.
* `walk` is a generator: its consumer runs between the yields. `Gen.walk` takes the consumer as a function that may do
  anything to the state (`remove` and `copy` use it so).
* Threads: a schedule is a list of (thread, step). Theorems quantify over all schedules and any number of threads.

## What is modelled, and what is not

**uriparse.py** – modelled: 60-157 (urisplit, uriunsplit, split_authority, join_authority), 160-335 (the parsers; `extra`
parsers handed to URIParser are not), 337-375 (urljoin). Not: `_test` (379-492).

**simpleuri.py** – modelled: all but `UriParse.__setattr__`-style mutation from outside (`query` is changed only by
`BaseUri.join`/`split` copies) and `__repr__`.

**fs.py** – modelled: the registry (21-175); normalize/denormalize (183-195); remove_dir_recursively (198-214);
with_connection (219-230); URI and BaseUri (237-823) except `__repr__` (`sync` (779) only on archives, where it raises);
`FileSystem.copy`, `_copy_link`, `makedirs`, `move`, `walk`, `glob` (896-1026) on the memory backend (`Gen`) and on any
mixture of memory file systems and local files (`Any`; `memOps_*` in `Any/Sys` proves that on memory alone both agree), and
with zip archives beside them (`Any/Zys`).
Not: `internal_copy`, `RevisionedUri`/`RevisionedFileSystem` (827-846, 1101-1116: no implementation is shipped), how the
entry points of plugins are looked up (1120-1125; loading them, 1127-1135, is `Reg/Plugins`),
the logging, and `sep` other than '/' beyond construction and `path` (C14).

**memory.py** – modelled: 18-629 except `MemoryFile.__str__` and friends (92-101), `_line_reader`.

**zip.py** – modelled: all but `WriteStatement.__getattr__` (the buffer); that `isexec`, `set_exec`, `info`, `mtime`, `sync`,
`lock` and `_manipulate` are refused on members is in `Any/Freight`. In `Zip` and `Any/Zys` a `Container` stands for the
archive's file; in `Any/Arc` it is a file of the other backends. Text modes are not distinguished.

**localfs.py** – modelled: `path`/`__str__` of the URI class, `info` (mode only), `isexec`, `set_exec`, `move` in `Local`;
`exists`, `isfile`, `isdir`, `islink`, `readlink`, `symlink`, `listdir`, `mkdir`, `removefile`, `removedir`, `open`
(`rb` and `wb`; `r+b` and `ab` in `Any/Files`), `copystat` (mode only) in `Any/Sys`, `info` (size and mode, with `set_info`;
on a link itself `lchmod` is taken to raise NotImplementedError, as on Linux), `isexec`, `set_exec` on the same disk in
`Any/Info` and `Any/Exec`, each a call of one assumed `os` function. Windows branches, `lock`
and times are not modelled.

**misc.py** – modelled. **exceptions.py** – as constructors of `PyErr`. **_version.py** (generated by versioneer), tests,
setup.py – not modelled.

### Simplifications

* Values of keyword extras are strings; keyword arguments other than username and password only reach the
  connection key.
* Times are integers; `mode` is an integer, its bit operations those of `Nat` for the values the code produces.
* A call of the memory backend is one step for the lock theorems (C59). The registry is interleaved at every access to
  shared state (C57), and so are the memory backend's own calls (C90–C92), except that an object is made in one step with the
  store into the directory that makes it known to others, that `self._data` and the call of a method on it are one
  step, and that `info` reads size, mode and time in one step. There connections exist already, and nobody changes the fault hooks.
* The cleaner thread (C106–C108): each look at the clock or at `run_clean_thread` is a step; reading the clock and taking the
  list of connections at the beginning of `cleanup` is one step. `time.sleep(1)` returns at some time when a second has passed.
  `shutdown` is called once, by a thread that does nothing else. An exception from outside (KeyboardInterrupt) is not modelled.
* Threads that work under a lock (C109–C111, `Conc/Locked`): the accesses of the bodies, of the `open` in `__enter__` and of the
  `remove` in `__exit__` are steps as in C90; reading `mfile.lock`, `acquire` and `release` are one step each. A thread does nothing
  but such statements, on one lock file, and does not use the file object the statement yields. Of a body the outcomes of its calls are
  values, so it does not end with an exception.
* dump (C93): `no_binary and mimetypes.guess_type(name)…` is a predicate `skip` on names; `outf.write` appends to a text.
* `MemoryLock.__enter__` opens the file and takes the connection in one step.
* The registry of `Mem.World.conns` is that of `Reg` restricted to memory connections; `C54_mem_key` shows that they
  use the same key. What clean-up does to memory connections is in C58.
* Failures (C82–C86, `Any/Frail`): each call of a backend may raise any exception, and either has had its whole effect
  or none; `write` may have written any beginning of its data. The algorithms of fs.py:198-214, 519-801 and 896-1026 have no
  `try` statement (only `with`, which closes files), so what an exception leaves behind is what a crash in the same
  call leaves behind. Data lost in operating system buffers is data not written. String functions do not fail.

## Where the code does not do what a user would expect

Each is proved on a concrete witness (theorem in brackets) unless marked "read only".

URIs
* A first path component that begins with '.' or ':' changes the meaning of the path: `/.hidden` becomes relative,
  `../x` has authority '..' (C01_refuted_dot, C01_refuted_colon, C02_refuted_root_dot, C67_refuted_hidden, C67_refuted_parent_relative).
* A `((…))` anywhere in a path is taken for a connector (C01_refuted_inner); nested ones are not kept (C09_refuted_nested).
* `split()`/`directory()` lose the query in one part (C04_refuted_query); with an authority, dirname of a one-component
  path is not the root (C04_refuted_authority_root, C05_refuted_authority_root).
* URIs of different users and members of different archives are equal (C07_user_refuted, C07_archive_refuted): `==` compares
  scheme, host, port, path and query only (C07_parts).
* Credentials passed as keyword arguments are not inherited by joins (C03_refuted_kwarg_username).
* A fragment holding a newline is cut (C08_refuted_newline); for schemes other than http it moves into the path, before the query (C08_refuted_query_fragment).
* Query keys are not escaped by joins (C11_refuted_keys); str() does not escape values (C12_refuted_quote).
* str() of an http URI without host prints only the path (C12_refuted_http); a host holding '@' after an empty user
  does not survive (C12_refuted_at); schemes with digits or capitals get the class of local files (C16_refuted_digits,
  C12_refuted_digit); one-letter schemes are taken for drives (C16_refuted_drive).
* With '\\' as separator a directory with a one-letter name at the root of the current drive is taken for a drive (C14_one_letter_refuted).
* basename and last differ after two slashes (C19_refuted_two_slashes).
* urljoin raises for relative references (C20_no_authority_rejected): `urisplit` merges the authority it does not have.
  Only `//./…` is taken for a relative reference (C20_relative); for a base directly below the root, such as
  `http://h/c`, the result has a doubled slash (C20_root_refuted); for a base without path, such as `http://h`, the
  reference is glued to the host: `http://hg` (C20_no_path_refuted).
* `URIParser.unparse` takes the scheme for the user, and never gives back what was parsed (C72_unparse_refuted);
  `mailto:joe@example.com` cannot be parsed (C72_mailto_refuted).

Memory backend
* Below a file or a dangling link, `exists`, `isfile`, `isdir`, `mkdir` raise AttributeError (C23_below_file, C25_parent_file).
* open(root, 'w') creates a file with an empty name (C28_root_refuted).
* Appending to an empty file puts a zero byte in front (C29_empty, C29_empty_refuted); this makes C29 partial.
* remove, islink and removal of `/a/b/a`, where `/a` is a link, raise (C31_repeated_name_refuted).
* symlink and copystat act in the file system of the target/source only (C32_/C37_other_file_system_refuted).
* All handles of a file share one position (C39_shared_position).
* The documented way of removing an injected fault is itself hit by the fault (C41_removal_blocked).
* `memory:///.hidden` is an AssertionError in every operation (C73_hidden); a query key `username` makes every
  operation a TypeError (C73_part_name).
* Calls are not atomic: two threads may both make a directory, the second time in place of the first with what is in it
  (C92_mkdir_race); a file can be written into a directory that is being removed (C92_remove_race); remove and exists raise
  KeyError if another thread removes the file meanwhile (C92_keyError_race, C92_exists_race).
* So with operations on trees: of two makedirs of one path one may raise EEXIST (C105_makedirs_race); recursive remove and walk
  raise if something is made or removed meanwhile (C105_remove_race, C105_walk_race). As all that open a file share its
  position, two threads that copy or hash the same file disturb each other: one may get nothing, the other the
  contents twice (C105_copy_race, C105_md5_race).
* `read(n)` in text mode counts bytes, and raises if that cuts a character (C39_read_text_refuted).
* dump shows of a file only what follows its position, so that files just written look empty, and all files in a second
  dump (C93_shows_rest); it raises for files that are not UTF-8, and with no_binary for every file named like an image (C93_error).

Generic algorithms
* walk raises if a link in the tree points below a file (C43_raises); following links round a cycle never ends
  (C45_cycle); recursive remove can crash half-way for the same reason (C46_crash).
* Copying a file onto itself empties it (C47_onto_itself_refuted); moving one onto itself destroys it
  (C51_onto_itself_refuted); copying to another memory file system fails at copystat, after the data was copied (C47_other_file_system_refuted).
* A link copied as a link to another backend is created in the file system of the source (C77_link_refuted).
* Names with white space at their ends are not copied as they are (C48_whitespace_refuted); the root cannot be copied
  (C48_root_refuted); directories get new times (C48_dir_mtime_refuted). `ignore` only ignores directories (C49).
* Through a link to the root a hidden name can be made in the root directory, which cannot be walked any more (C71_hidden_refuted).
* Copying a tree to a new name again after an interrupted copy copies into the incomplete copy (C86_copy_tree_refuted);
  copying it into a directory again completes it (C89).
* Copying a directory into itself (or moving it, in memory) does not end: whatever the recursion limit, it is reached (C94_copy, C94_move).
  (Locally an operating system with a limit on path lengths would raise before; there is none in the model.)

Registry and locks
* Two threads may get different connections for a key (C57_same_refuted), a KeyError (C57_keyError), a closed
  connection (C57_closed); two clean-ups at a time can fail (C57_cleanup_twice).
* So `shutdown` raises KeyError, or the cleaner thread dies of one, when they meet (C107_raises, C107_cleaner_dies), and the
  cleaner can die because another thread calls `cleanup` (C106_dies). With a `clean_interval` that is not positive `shutdown`
  never ends (C107_hang_refuted). A connection that replaces another one can go without being closed (C108_leak).
* Creating any memory file system empties the table of locks, so that two threads may hold the lock of one path
  (C59_new_file_system_refuted). `lock()` truncates the file before it is locked (C59_content_refuted); the file can be removed
  by the leaving thread while another waits (C59_cleanup_refuted), or while it opens it, so that `lock()` raises AttributeError
  (C109_cleanup_race); of a link, the link is removed (C60_link_refuted).

Zip
* isfile, isdir and exists raise AttributeError before the archive is opened (C61_unopened_refuted).
* In archives made by other tools (names without leading slash) the root lists second components (C62_foreign_refuted).
* Reading or writing another member inside a write statement loses data or raises (C63_nested_refuted, C63_read_inside_refuted).
  Names are cut at NUL (C63_nul_refuted). An exception in the body does not keep the member from being
  written (C63_body_raises); mode 'a' is an UnboundLocalError (C63_append_refused).
* Copying from an archive that was not used before is an AttributeError (C101_unopened_refuted). Copying the root of an archive
  cuts the first letters off its directories, without an error (C101_root_refuted). Nothing can be removed, so that move
  copies and then raises (C101_move_refuted); directories cannot be copied into a non-empty archive (C102_tree_refuted); between
  archives a member is copied and then NotImplementedError raised (C102_between_refuted).

Local
* If the old directory is gone, leaving WorkingDirectory raises instead (C65_gone_refuted).
* Moving a directory `n` into a directory that has a directory `n` puts it into that (C66_existing_refuted).
  The same with links: C98_twice. A link moved onto the file it leads to destroys the file (C98_onto_target_refuted).
* Closing a TempFileHandle twice raises (C68_closed_twice_refuted).
* Copying a link as a link reads its text as a URI: a relative text becomes an absolute one (C97_relative_refuted), what
  follows a question mark is lost (C97_question_refuted). The file at the destination is removed before the link is read:
  a link copied onto itself is gone (C97_itself_refuted), and copied onto the file it leads to it destroys that
  (C97_target_refuted). If the destination is in memory, the local file of that path is replaced (C97_memory_refuted).
* So relative links in a tree that is copied lead elsewhere in the copy (C99_relative_refuted). A copy that follows links
  raises at the first link that leads nowhere, leaving what it has made (C100_dangling_refuted).

Memory and local files
* The two can be told apart where a path leads through a file (AttributeError in memory, otherwise nothing there:
  C112_through_file_refuted), by listing a file (C112_listdir_file_refuted), reading a directory (C112_read_dir_refuted), making
  the root (C112_mkdir_root_refuted), moving a directory into itself (C112_move_inside_refuted), moving what is not there
  (C112_move_missing_refuted). Elsewhere no program can (C112_same).
* A program that uses links can tell them apart by writing through a link that leads nowhere (ENOENT in memory, locally the
  file is made: C129_write_dangling_refuted), by a path with such a link in the middle (AttributeError in memory, otherwise
  nothing there: C129_dangling_middle_refuted), by more than 32 links (C129_many_refuted), and by `islink` or `readlink` of a
  name that occurs earlier in the path (C129_same_name_refuted), and by `remove(recursive=True)` of a directory with a link that
  leads below a file (AttributeError in memory, removed locally: C129_remove_below_file_refuted), and by moving a link (what it leads
  to is copied in memory, the link is moved locally: C129_move_refuted). Elsewhere no such program can (C129_same).
* In memory, walking or copying through links fails with AttributeError when a directory that a link leads to has an entry with
  the name of the link: `islink` of `s/a/a` stops at the first `a` (C113_repeated_refuted). Copying through a link that leads
  nowhere stops half way (C113_lost_refuted). C113 excludes both.
* `u.symlink(v)` with a relative `u` stores the text `./…`, which the operating system takes from the directory of `v`
  and not from the current directory (C114_symlink_refuted).
* File objects differ: in memory a file opened for reading can be written (C118_write_on_read) and lines can be read from one
  opened for writing (C118_lines_on_write), all file objects of a file share one position (C118_shared), also with reading the
  whole file by its URI (C118_read_moves), 'ab' of an empty or missing file or after `seek` is different
  (C118_append_empty, C118_append_missing, C118_append_seek), so are `seek` to before the beginning (C118_seek_negative),
  `truncate` to more than the size (C118_grow) and use after `close` (C118_closed).

Archives
* A member that is opened for writing, written and closed without `with` is not stored (C125_closed_refuted). Of two members
  of one archive that are open at the same time only the one left first is stored, leaving the other raises ValueError
  (C125_with); reading a member before the statement is left has the same effect (C125_read_refuted). A statement that could
  not be left can be left again after another member was opened for writing, and is stored then (C125_again_refuted).
* `copy` from a member to a member stores the bytes and then raises NotImplementedError, because both URIs have the scheme zip
  and the backend has no `copystat` (C126_raised_refuted). Inside one local archive it stores an empty member and raises
  ValueError: opening the destination closes the file the source is read from; in memory that file can still be read
  (C126_inside_refuted). `move` of a member to a file copies it, leaves it in the archive and raises NotImplementedError.
* When the connection of an archive was dropped by the registry's clean-up, asking for a member that exists raises
  AttributeError until the archive is listed, read or written (C127_refuted). As long as it is not dropped, `listdir` shows
  what was seen when the archive was opened last, whatever has happened to its file (C127_stale_refuted).
* Writing a file again takes its executable flags away in memory (`MemoryFile.reset` sets the mode to 0) and leaves them
  locally; copies on another backend have none; `isexec` of a directory is false in memory and true of any directory that
  may be searched locally (C128_backends_refuted).
* A tree that is copied into an archive which lacks one of its directories ends with NotImplementedError after some of its
  files were added (C130_whole_refuted).
* `info(set_info=dict(mtime=t))` does nothing on local files, not even raise where nothing is; with `followlinks=False` the
  mode of a local link cannot be set; modes are told with the type of the object locally and without it in memory
  (C131_backends_refuted).

## Partial results

C29 is the only one: as stated ("append keeps the old content and adds the new") it is false of the code for empty
files. `C29_append_partial` is the statement for non-empty files, `C29_empty` says what happens to empty ones.
For all other properties the statement in `properties.jsonl` names exactly the domain the theorem covers; where the
domain is restricted, the refutations above show what happens outside of it.

## Per property plan

| Ids | modelled | proof |
|---|---|---|
| C01–C06, C14–C19, C67 | constructor, parsing, join, split on strings | a normal form for well-formed URIs (`Uri/Clean`), then list algebra |
| C07 | `__eq__` | algebra on dictionaries |
| C08, C09, C17 | the patterns as scanners | `takeWhile`/`dropWhile` lemmas |
| C10–C12 | query codec with percent encoding and UTF-8, printing | round-trip inductions |
| C13, C20 | authority, urljoin | case analysis |
| C21 | all heap operations | invariant `Mem.Inv`, induction over histories |
| C22, C33, C34 | lookup | equivalence with the relation `Goes` |
| C23–C39 | each memory operation | heap operations as changes of the map of physical paths (`Mem/Heap`, `Mem/OpLemmas*`) |
| C40, C53 | md5, glob | loop induction, parametric in the hash and the match function |
| C41 | fault hooks | case analysis over all operations |
| C42–C52 | generic algorithms | induction on depth and on the list of names, frame lemmas |
| C54–C56, C58 | registry | invariant over call histories |
| C57, C59 | interleavings | invariant over all schedules |
| C60 | lock and clean-up | direct |
| C61–C64 | zip | list lemmas, refinement to "last write per name" |
| C65, C66, C68, C69 | local | case analysis over the assumed operating system |
| C70 | all operations | frame lemmas: the objects reachable from a root stay as they are (`Mem/Frame`, `Gen/Frame`) |
| C71 | all operations | invariant on the names in directories (`Gen/Tidy`) |
| C72 | URIParser | the scanners on each part |
| C73 | refusals | direct |
| C74–C81 | generic algorithms over memory and local files | laws of a backend (`Any/Laws`), theorems from the laws (`Any/Walk`, `Any/Copy`), the laws for memory and local files (`Any/SysLemmas`, `Any/Pump`) |
| C82–C86 | the generic algorithms over memory and local files, every call of which may fail | what returns returned without failures (`Sim`, `Any/Frail`); what every prefix of the calls leaves behind (`Ends`, `Any/FrailTree`, `Any/FrailCopy`) |
| C87 | refusals of local files, and of copy on both backends | case analysis over the assumed operating system |
| C88, C89 | the same algorithms onto a tree that is there, and a second time after a failure | `over`, `Laws.mergeTree`, `Laws.mergeMove` (`Any/Merge`): the destination is overlaid; what an interrupted copy leaves behind can be overlaid |
| C90 | the memory backend, one access at a time | rely and guarantee: between two accesses others may do whatever keeps the heap in order (`Conc/Rely`, `Conc/Safe`, `Conc/Threads`); alone: accesses in a row do what the sequential model does, call by call (`Conc/Agree`) |
| C91 | the same, with the places each thread touches | the same with a set of touched places; two runs side by side, with a correspondence of the objects at and below the place (`Conc/Twin`, `Conc/Alone`, `Conc/Isolated`) |
| C92 | two threads | evaluation of concrete schedules and of all orders of the calls |
| C93 | `MemoryFileSystem.dump` | the sorted list of all locations (`Listed`) is what the recursion goes through; reading moves positions only |
| C94 | copy and move over memory and local files | what has been copied is of the kind of what it was copied from (`Nested`); along the destination's own name, again and again, the walk always finds one more directory (`Any/Nest`) |
| C95–C97 | local links | where a path through links leads (`Leads`, `Any/LocLink`); removal from laws about links (`Any/Links`); what operations leave alone (`Quiet`) |
| C98 | `LocalFileSystem.move` with links | where source and destination lead (`Named`, `ToDir`); a rename shifts a subtree (`Shifted`, `Any/LocMove`) |
| C99, C100 | `walk` and `copy` of local trees with links | a tree that is read (`Source`) and a place that is written (`Sink`, `Any/Flow`); while a new name is written what a path leads to stays (`Held`, `Any/LocFlow`); the tree with its links or seen through them (`asIs`, `through`, `Any/LocTree`) |
| C101, C102 | the same algorithms with zip archives beside memory and local files | an archive as a tree that is read (`zipSource`, `Any/ZipFlow`), the other backends' laws carried over (`zysLaws`, `Any/ZysLemmas`), a write statement as one appended entry (`Any/ZipInto`) |
| C103 | `osSplitext`, `Uri.splitext`, `Uri.port` (`Uri/Splitext`) | the last dot of a name; the URI after joining has the same authority |
| C104 | trees of method calls (`Conc/Op`), each a program of accesses | which calls an operation makes, given what is known of the answers (`Conc/OpFit`); rely and guarantee with fine names and kept directories (`Conc/OpWp`); two runs side by side as for C91 |
| C105 | two threads | as C92 |
| C106–C108 | the cleaner thread, shutdown and other threads on one registry (`Reg/Cleaner`) | invariants over endless schedules; a thread waiting for its turn stays where it is (`wait_turn`), a clean-up has ever fewer steps left (`cleaning_ends`, `Reg/CleanerLemmas`) |
| C109, C110 | statements `with p.lock(...)` of many threads, access by access (`Conc/Locked`) | the real run beside the run of the bodies one after the other, with the correspondence of objects of C91: the thread in the body goes on in both, the others only in the real one (`Gate.Inv`, `Conc/LockedWp`); files made at the place of the lock file have its path (`Conc/Each`); each thread has finitely many steps left, and only one that waits for a held lock cannot make one (`Conc/LockedEnd`) |
| C111 | the same | while threads are in `__enter__` the directory of the lock file stays, and its entry, once there, is always a file, though perhaps another (`Conc/Door`: what `open` comes to under these conditions); all accesses of all threads keep to them (`Conc/LockedAll`) |
| C112 | programs of calls (`Any/Plain`), run in a place of `Sys` and in a list of names and objects | each call keeps the relation "the place holds this tree" and answers the same, or the plain file system has no expectation (`Alike`): single calls in `Any/Same`, the algorithms over them by walking through their code once for both (`Any/SameAlg`), move through C98 and C79 (`Any/SameMove`) |
| C113 | `reached ns p`: what a path leads to in the name space; `Shown`, `Passable`, `Whole` (`Spec/Through`) | the tree seen through links as a `Source` of the generic copy (`Any/Flow`), which stays the same while new names appear at the destination (`Any/MemFlow`); move adds C46 |
| C114 | two paths with which the operating system's lookup (`Disk.find`) ends at the same place (`SamePlace`) | the lookup goes on from a directory as if its names came first (`hop_parent`); every primitive call depends on the path only through the lookup |
| C115 | programs of calls (`Any/Many`), run in places of `Sys` and in one list of names and objects for each place; what copying and moving between places leaves is said of the lists directly (`Tree.over`, `Tree.cut`), not by running fs.py | each call keeps the relation "every place holds its tree": calls in one place through C112, calls between places through C77, C79, C87 and C88 (`Props/Many`) |
| C116 | programs of calls, run in places of `Sys`, and what each call answers and leaves, said for lists of names and objects (`Any/Says`): nothing of fs.py is run there | the calls that are one question or change through C112; makedirs, remove, copy, walk and glob through C74, C75, C76, C77, C81, C87 and C88; there is only one list of the directories below a path in the order of `Order` (`order_ext`, `Any/SaysLemmas`) |
| C117 | the loop over the entry points, each given by what loading it does (`Reg/Plugins`); classes stand for themselves by name | induction over the list; two refutations evaluated |
| C118 | the file objects of memory files (`MemoryFileProxy`) and of local files, in a table beside `Sys` (`Any/Files`); those of local files are binary files of the standard library without buffering: what is written is in the file at once (in the domain of the claim nobody else looks at the bytes before the file is closed); two objects of one memory file share the position that the file object has | each step keeps the relation "every place holds its tree, every open file is at its name and position" (`FRel`, `Props/Files`): methods through `op_done`, opening and closing through `opened_there`, `opened_new`, `close_step` (`Any/FilesLemmas`), calls through C116, those on names beside the open files also through `name_beside` (what one call does to one name keeps the nodes, file descriptors and names of the others, `Beside`), recursive removal through `remove_keeps` (it only takes entries away, `Mem/Less`, `Any/Trim`); refutations evaluated |
| C119 | plans of threads with lock statements inside each other (`Lock/Several`); a call of the file system is one step, as in C59; the file object of a lock statement is given to its body | the locks on the stacks of the threads are those held, each once (`Kept`); a thread that cannot step waits, so in a finite stuck crowd waiting goes in a circle; a thread has finitely many steps left (`Thread.Next` is well-founded, by recursion on plans and stacks), so a fair run comes to rest; with lock files that stay, the path of the file fixes the lock (`Props/Ordered`) |
| C120 | `walk` fused with the loop around it (`Any.walk`, `uVisit` in `Any/Steer`): a generator and the body of its loop take turns; leaving the loop is a body that raises; what the body does is any function of its variables, the row and the state | induction over the depth of the walk for a body with a condition on what it leaves (`Laws.steer`, `Laws.steer_up`), giving the list of rows with the runs of the body (`Went`) and what is in it (`Down`); the three loops by following this list (`Props/Sweep`); refutations evaluated |
| C121 | the methods of the zip backend with the archive as a file of `Sys`, opened, read and written through the file objects of C118 (`Any/Arc`). Assumed of `zipfile.ZipFile` (`Codec`): it reads back the entries that were stored, and an empty file is no archive. What `writestr` and `close` write is taken together; a file object opened for reading is read to the end and closed at once (a member that is opened is read before the backend is used again) | each call keeps the relation "every place holds its tree, every connection knows what the description says and has nothing to write" (`ARel`, `Props/Arc`): the calls of a connection through `inner_step`, the others through C116; the examples use a small way of storing entries, `toy`. Every call, also those on plain files, runs with the table of all three backends; `acts_arc` takes those back to the table of two |
| C122 | `copy` of fs.py over the table `arcOps` (`Any/Pack`); both open files of a copy are in the state at once, the archive's and the other | `open_says_r`, `open_says_w` (opening a member, and what leaving the statement does after the other file was read), `pack_out`, `pack_into`: each call keeps `ARel` of C121 |
| C123 | the algorithms of fs.py over the tables `arcOps` (three backends), `sysOps` (memory and local), `memOps`, `locOps` (one each), for URIs of any text | `OpsIn O O'` (`Any/Part`): every algorithm run with the larger table on URIs served by the smaller one is the run with the smaller one, lifted; that join and split never lead out of the texts is proved of the parser for any names (`Any/PartUri`, `Any/PartMem`); `arcPart`, `memPart`, `locPart`. A URI whose text has lost its scheme (join makes 'None://' of it) is served by no backend. `C123_backslash_refuted` is why texts with a backslash are left out |
| C124 | the algorithms of fs.py over `arcOps`, on members of archives that are files of `Sys` (model of C121) | an opened archive as a tree that is read (`arcSource`, `Any/ArcFlow`), in the generic walk and copy of C101; `AOpened`: the file holds the entries, and the connection has seen them; that no link is touched is proved of every step of the zip backend (`links_aOpen`, `links_aExit`); packing by induction over the list, `C124_tree` says what the list is as a tree |
| C125 | the connection of `Zip/Model` with a table of `WriteStatement` objects, each with its `BytesIO` (`Zip/Open`) | `Act.says` says what every step answers by the archive at the beginning, what has been stored, how the archive was opened last and the buffers; `C125_step` proves it of the methods of zip.py by an invariant (`ZRel`), `C125_program` for every program; the others follow from it |
| C126 | `arcOps` with `arcPump` for two members; `uCopy`, `uMove` and the methods zip.py does not have (`Any/Freight`) | `FreightAct.says` says what every call answers by the trees and what was seen of the archives; `freight_carry`, `freight_out`, `freight_in`, `deny_step` prove it of the functions, `C126_program` for every program; `C126_nothing_removed` by cases on what `_ispart` answers |
| C127 | `cleanup` as the loss of the handles of some archives (`Any/Dropped`) | `SweepAct.says` forgets what was seen; `C127_program` by `freight_step`; `C127_heals` because `ZAct.tells` of reading and writing does not ask what was seen; `C127_lists` |
| C128 | `isexec` and `set_exec` of both backends on the state of `Any/Sys` (`Any/Exec`) | `siteX` is the file's mode in the tree, cut to 0o111; what every call of `sysOps` does to it (`x_*`) makes `execLaws`, an instance of `Laws` whose view carries the flags, so the theorems on trees of C74-C88 speak of flags; `quietLaws` for copies to another backend; `C98_*` for local moves |
| C129 | programs of calls with links (`Any/LinkPlain`), run in a place of `Sys` and in a list of names with directories, bytes and links | each call keeps the relation "the place holds this tree, its links have these targets" (`LRel`) and answers the same, or there is no expectation (`LAlike`); a path over links is followed in the list (`LTree.lead`), on disk (`Leads`, C95) and in memory (`Goes`) to the same name (`lead_way`, `Any/LinkSame`), and there the call is one without links (`Any/LinkActs`); recursive removal in memory asks for links whose targets are tame in every state on the way (`tame_good`, `Any/LinkTrees`); makedirs, walk, glob and copy are related step by step to recursions over the list (`LLike`, `Any/LinkAlg`, `Any/LinkCopy`); move of what has no links renames in the list (`LTree.shift`), the links elsewhere staying (`memMove_file`, `memMove_dir` in `Props/MoveInv`, `Any/LinkMove`) |
| C130 | the recursive copy and `move` of fs.py over `arcOps`, from a place of `Sys` to a place in an archive that is a file of `Sys` (model of C121) | a generic walk that writes to a place which makes no directories (`Chute`, `Any/Chute`): either all directories are there and every file that is kept is written, or it stops at one that is not; the tree that is read (`siteSource`) stays the same while only the file of the archive changes; one file is added by `arc_add` (`Any/ArcInto`); directories seen in the archive stay the same, since files are added in directories it has |
| C131 | `info` of both backends, the fields size and mode, with `set_info` and `followlinks`, on the state of `Any/Sys` (`Any/Info`) | the lookup of the path (`find_here`, `find_leads`, `info_found`, `info_nofollow`) and one `stat` of the object found; the size of a local directory is any number; `C128_write` for sizes after writing |
| C132 | the programs of C129, each call in one of several places (`Any/LinkMany`), against one list of names with directories, bytes and links for each place | the call keeps its own place as in C129 (`lalike_act`), whose relation says of the other memory file systems that all of their nodes stay (`LRel.rest`); a call in memory leaves the disk as it is and the other way round because both are parts of the system (`SparesRest`, from `req_part` of C123). Copying and moving between memory and local files, and between memory file systems: the algorithm of fs.py step by step against the same steps in the plain file systems (`lCopyTo`, `lTreeTo`, `lMoveTo` of `Any/LinkMany`; `MLike`, `mlike_at`, `mlike_fileTo` in `Any/LinkAcross`); between memory file systems `copystat` is called on the file system of the source (`lStat`, `llike_stat`), as in C77_between_memories, and a link that is not followed is made with the connection of the source (`lLinkTo`, `mlike_linkTo`), as in C77_link_refuted |
