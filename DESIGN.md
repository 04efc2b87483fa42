# Formal model of cocotb-bus in Lean 4

Source of truth: `/repo` (cocotb/cocotb-bus 0.3.0 at the pinned commit), read as text, never run.
Properties: `properties.jsonl`; status: `MANIFEST.json`; wrong-program experiments: `seeded/LOG.jsonl`.

## Layout

* `lean/Verif/Model/*.lean`  - the model: small total functions mirroring the Python, one definition
  per function, every definition citing file and lines. Exceptions are values (`PyErr`).
* `lean/Verif/Spec/*.lean`   - independent specifications used in statements (AXI address equations,
  byte memories, reorder windows, packet framing...). They do not use model functions, except where the
  property is about a test itself (`Spec/AxiTests.lean`: the words that the test expects).
* `lean/Verif/Proof/*.lean`  - helper lemmas.
* `lean/Verif/Props/*.lean`  - the property theorems (`Cnn_...`), each followed by an `example`
  showing that its hypotheses are met by a concrete non-trivial case. Theorems that are weaker than the
  property end in `_partial`; where the code violates the property there is a
  `..._violated` theorem with a witness.

## Trusted base

* Lean 4.33.0 kernel. Every theorem depends on at most `propext`, `Classical.choice` and `Quot.sound`
  (checked with `#print axioms` for all theorems of `MANIFEST.json`; see "Axioms" below). No own axioms, no `sorry`,
  no `native_decide`, no `bv_decide`. `decide +kernel` is evaluation by the kernel.
* The reading of the Python source by which the model was written.
* Assumed behaviour of what is outside the repository, all of it explicit in the model:
  * **cocotb scheduling / phases** (`Model/Coro.lean`): a task runs without interruption between
    awaits; after `RisingEdge` inputs read as they were just before the edge, after `ReadOnly` as they settle in that
    cycle; a value written is seen by the design from then on and is sampled at the next rising edge; writing a
    signal in the ReadOnly phase raises. Whether awaiting `ReadOnly` inside ReadOnly raises (2.x) or
    not (1.x) is a parameter. The DUT is arbitrary: all its outputs are a universally quantified
    list with one entry per clock cycle (so synchronous inputs: one settled value per cycle).
  * **cocotb types** (`Model/Compat.lean`): `LogicArray` is its string, MSB first;
    `to_unsigned`/`to_bytes`/slicing as documented for cocotb 2.x (the 2.x branch of `_compat.py` is
    the one modelled; U, W, L, H, - are identified with X). `BinaryValue` (1.x) is modelled only as far as `compat.py` uses it (Model/Compat1.lean).
  * `ClockCycles(clk, 0)` does not wait.
  * `Event.set()` makes all current waiters runnable, later; `Event.wait()` on a set event does not block; cocotb `Lock` is FIFO.
  * Python: dict order, `deque`, generators, integer bit operations (on non-negative integers, as `Nat`
    operations), `zlib.crc32` (except in C109, where it is computed bit by bit) and scapy's `Ether` as arbitrary functions.
* Not modelled: logging output (except XGMII "an error was logged", and the names of the loggers), deprecation warnings, hexdump/hexdiff,
  the simulator, wall-clock performance, documentation, and the examples and tests that no property names.

## Modelling technique

* Pure functions (checks, lane arithmetic, conversions): Lean functions over `Nat`/`Int`/`List`.
* Coroutines that talk to pins cycle by cycle: a state monad `M I O α` over a schedule
  of inputs, with outcomes `ok`, `err` (exception) and `blocked` (schedule exhausted while waiting), which emits
  one record (outputs, inputs) per rising edge. `while True` loops are `loop`, every iteration consumes a clock edge.
  All theorems quantify over every schedule.
* Monitors: a step function per clock edge folded over the trace.
* Closed loops (coroutine and device or memory): the theorems assume that in the simulation the inputs are those of the device
  (`Serves`, `Drives`, ...). That such simulations exist, of every length and for all arguments, is proved as well, from the causality of the
  coroutines (what they do up to an edge does not depend on later inputs): `C100_exists`, `C102_exists`, `C103_exists`, `C119_exists`, `C125_exists`,
  `C126_exists`, `C127_exists`. Of the other closed-loop properties (C106, C107, C122, C123) concrete simulations are given.
* Scheduler-level races (send thread, busy lock, wait_for_recv, AXI locks): labelled transition systems
  `step : State → Op → Option State`; theorems are invariants over all runs.

## What is modelled

| File | Modelled | Not modelled |
|------|----------|--------------|
| `bus.py` | everything: `Model/Bus.lean` (signals as a mapping), `Model/BusNames.lean` (with Python's attribute lookup) | messages |
| `_compat.py` | both branches: 2.x in `Model/Compat.lean`, used everywhere; 1.x in `Model/Compat1.lean`, compared with it | `test_success` |
| `scoreboard.py` | everything but log output, `hexdump`, `hexdiff` | messages |
| `monitors/__init__.py` | `Monitor` (callbacks that register callbacks or change transactions: `Model/SharedObj.lean`), `wait_for_recv`, `kill` (`Model/MonKill.lean`), `in_reset` | `__str__`, constructor of `BusMonitor` |
| `monitors/avalon.py` | both monitors, constructor checks, what a failed constructor leaves running (`Model/Failed.lean`) | `AvalonSTPktsWithChannel` is the same monitor with `reportChannel` |
| `monitors/xgmii.py` | everything; `crc32` is a parameter, for C109 `zlib.crc32` as in `Model/Crc.lean` | log texts |
| `drivers/__init__.py` | `BitDriver`, `Driver` (keyword arguments apart, in `Model/Kwargs.lean`; its queue thread in time: `Model/QueueBus.lean`; callbacks that use the driver: `Model/DriverCb.lean`; transactions as objects: `Model/SharedObj.lean`), `BusDriver._driver_send`, the wait helpers, `ValidatedBusDriver`, lock, sockets | constructor plumbing |
| `drivers/avalon.py` | `AvalonMaster`, `AvalonMemory` (also the two on one bus: `Model/MmUse.lean`; several tasks: `Model/MmTasks.lean`), `AvalonST`, `AvalonSTPkts` | log texts |
| `drivers/amba.py` | checks, lane arithmetic, five channels of `AXI4Master`, `AXI4LiteMaster`, `AXI4Slave`; the locks (`Model/AxiQueue.lean`); sequences of calls (`Model/AxiUse.lean`, all exceptions caught: `Model/AxiTry.lean`); a writing and a reading task (`Model/AxiPar.lean`); any number of tasks (`Model/AxiMany.lean`); calls given up (`Model/AxiGiveUp.lean`); `__len__` of the masters (`Model/Len.lean`) | log texts |
| `drivers/opb.py` | everything | |
| `drivers/xgmii.py` | everything; `crc32` is a parameter, for C109 `zlib.crc32` as in `Model/Crc.lean` | |
| `bin/combine_results.py` | merging, totals, exit status | options, reading and writing files, messages |
| examples/endian_swapper | the testbench class, monitors, `model()`, `stop()`, register access and the device (`Model/RefModel.lean`, `Model/EndianSwapper.lean`) | the C code, reset, clocks, the VHDL version |
| examples/dff, examples/mean | the testbenches and the devices (`Model/SmallExamples.lean`) | the VHDL versions, clocks |
| examples/axi_lite_slave | the device (`Model/AxiDemo.lean`) | reset, clocks |
| tests/test_cases/test_avalon_interface (AvlMMRead), tests/designs/avalon_interface_module/mm_reader.sv | the test and the memory (`Model/MmHw.lean`) | the streaming part, which is wires |
| tests/test_cases/test_avalon_stream, tests/designs/avalon_streaming_module | the test and the device (`Model/StreamFifo.lean`) | reset, clock |
| tests/test_cases/test_axi4 | the calls and the expected words (`Model/AxiTests.lean`) | the memory axi_ram.v, drawing random numbers, reset, clock |
| other examples and tests, docs | | nothing modelled |

## Axioms

The output of `#print axioms` for every theorem in `MANIFEST.json` is a subset of `[propext, Classical.choice, Quot.sound]`.

## Findings: properties that are false of the code

Each has a `_violated` theorem (a concrete execution, or a statement about every execution) and, where something remains, a
`_partial` theorem.

* **C02** (A missing required signal is reported when the bus is built): in the default mode a missing required signal binds `None`; the error comes later, as AttributeError of `NoneType`.
* **C03** (Optional signals may be absent): with `case_insensitive=False` an optional signal present only in another case raises AttributeError.
* **C06** (capture() is a faithful, read-only snapshot): `capture().keys`, `.items`, ... are the methods of `dict`, not the signals of these names.
* **C100** (An AXI4 memory seen through the master is an array of bytes): follows from C55 and C58: after a burst with `data_latency` the memory does not contain the values written.
* **C101** (Expected output computed while the test runs): with a reference model on the input monitor, a device without latency fails or passes depending on which monitor runs first at the clock edge.
* **C102** (An AXI4 master is usable after error responses): follows from C55 and C58, as C100 does; error responses add nothing to it.
* **C103** (Reads and writes of an AXI4 master at the same time): follows from C55 and C58, as C100 does; that two tasks use the master adds nothing to it.
* **C104** (A reordering window on expected output that grows while the test runs): as C25: the search compares with == and may take a value of the wrong type although a right one is in the window.
* **C106** (Any number of tasks share an AXI master on a memory with several outstanding requests): follows from C55 and C58, as C100 does; that many tasks use the master adds nothing to it.
* **C107** (Several tasks share an Avalon-MM master on a memory): `_release_lock` wakes everybody who waits, and they take the lock without looking whether it is free: a task that calls again at once and one that waited both get it, as do two that waited; both drive the signals and a write is lost although its call returns.
* **C108** (What is offered on a bus stays as it is until it is taken): with a `data_latency` WVALID stays high between the values of a burst, and the value offered is replaced although it was not taken; a word with `valid=False` withdraws what is offered; two Avalon-MM tasks that both have the lock (C107) replace each other's requests.
* **C109** (XGMII frames damaged on the way are noticed): as C69: proved for the module with its missing import added, on buses no wider than a frame.
* **C111** (A callback of a monitor may register callbacks): a callback that registers a callback at every call, for example itself, makes the loop over the callbacks endless: the simulation hangs.
* **C112** (A transaction is sent as it was when it was appended): `append` keeps a reference: an object that is changed before its send looks at it is sent as changed.
* **C113** (Every consumer of a monitor sees the transaction that was received): callbacks share the dict reported with the channel: one that changes it changes it for those after it, the event and `wait_for_recv`.
* **C114** (Write and read bursts keep AvalonMemory coherent): with `WriteBurstWaitReq` off a beat that follows a write burst at once is accepted and ignored, and in a gap between beats whatever is on `writedata` is stored instead of the next beat.
* **C115** (The configured ready latency of packetized Avalon-ST): `readyLatency` is accepted in the configuration of the packet driver and monitor, and ignored: beats are lost or taken twice by a sink with a latency, and packets are not reported.
* **C116** (Names identify drivers and monitors): the monitors of the elements of an array of buses all have the same name (and logger); a driver of element 1 of `a` has the name of one of the bus `a_1`.
* **C122** (An AXI write given up by its caller is still carried out as a whole and holds nobody up): as C106: follows from C55 and C58.
* **C123** (The outcome of an AXI write is the response to that write, also if an earlier one was given up): the response to a write that was given up is taken by the next write: a write that succeeded raises AXIProtocolError, or one that was refused returns.
* **C124** (An AXI read given up by its caller is asked for at most once): a read given up before its address is accepted leaves ARVALID at 1: the slave accepts the address again and again, and answers each time.
* **C14** (A failing transaction does not stop later ones): an exception from `_driver_send` or a callback ends the sending coroutine; everything queued after that is never sent.
* **C15** (Bus access is mutually exclusive): two tasks waiting for the busy lock both get it; so does a waiter together with a task that acquires right after the release.
* **C19** (The base BusDriver puts the transaction on the bus): `BusDriver._driver_send` assigns `self.bus.value`, a plain Python attribute: no signal changes.
* **C20** (Blocking send does not overlap queued sends): a blocking `send()` runs at the same time as a queued one.
* **C22** (wait_for_recv returns the transaction that ended the wait): if a second transaction arrives before the waiting task runs, `wait_for_recv` returns the second one.
* **C25** (Reordering window): transactions of different type that compare equal are matched by the search, then rejected by `strict_type`.
* **C26** (Unexpected or missing transactions are never silently accepted): adding one monitor twice replaces the expected list: leftovers of the first are not reported.
* **C29** (A rejected add_interface has no effect): `add_interface` registers the expected list before it checks its arguments.
* **C30** (Scoreboard works with every monitor in the package): the XGMII monitor has no `name`, which the scoreboard reads.
* **C32** (Avalon-ST: driver and monitor agree on byte order): the Avalon-ST driver is always little-endian, the monitor big-endian by default: bytes come back reversed.
* **C39** (Undefined data at end of packet is a protocol error): UnboundLocalError instead of a protocol error, unless some last beat before had a nonzero `empty`.
* **C40** (Reset discards a partial packet): reset does not clear the packet collected so far.
* **C41** (Packet channel handling): an out-of-range channel raises with `valid` already at 1.
* **C42** (Packets given as iterables of bus words are driven): bus words given as objects are never driven (`self.bus.value = word`).
* **C43** (Symbol width other than 8 bits): `empty` is counted in bytes by the driver and in symbols by the monitor.
* **C48** (AvalonMemory burst write stores consecutive words): a wait chosen before the first beat writes a signal in the ReadOnly phase; a gap after a wait of length zero stores garbage.
* **C49** (Properties of one AvalonMemory do not affect another): `_avalon_properties` is a class attribute: options leak into memories constructed later.
* **C53** (Invalid AXI arguments never reach the bus): an empty `byte_enable` and an address too large for AWADDR raise with the other channel already driven.
* **C55** (AXI write data channel: exactly one handshake per beat): with `data_latency` WVALID stays high between beats, so beats are transferred several times.
* **C58** (AXI WRAP transfers use the byte lanes of the AXI wrap address): wrapping bursts shorter than the bus that do not start at their boundary use the wrong byte lanes (all of them; the others are right).
* **C60** (AXI write then read returns what was written): consequence of C55.
* **C63** (Concurrent AXI transactions are matched to their own responses): if a write address is refused its data is sent nevertheless and is taken for that of the next write.
* **C65** (AXI4Slave serves writes): `AXI4Slave` drives WREADY in the ReadOnly phase: it dies at the first write.
* **C66** (AXI4Slave serves reads): `AXI4Slave` awaits ReadOnly in ReadOnly, or drives RDATA there: it dies at the first read.
* **C69** (XGMII frames round-trip): IndexError on buses wider than the frame; otherwise proved for the module with its missing import added.
* **C70** (The XGMII driver can be constructed and used): `create_binary` is not imported in `drivers/xgmii.py`: NameError on construction.
* **C71** (XGMII monitor error handling): a frame without any data is dropped without an error.
* **C72** (OPB time-out): an acknowledge in the first cycle of a request is not seen.
* **C73** (OPB transfers complete): a transfer acknowledged in a later cycle raises, as `select` is written in the ReadOnly phase.
* **C74** (An OPB time-out leaves the master usable): operations that raise leave the request on the bus and the lock taken.
* **C75** (Signal names do not disable the bus operations): a signal called `drive`, `capture` or `sample` hides the method; one called `_signals` makes the constructor fail.
* **C76** (A value that cannot be converted puts nothing on an Avalon-ST bus): a value that cannot be converted raises with `valid` already at 1.
* **C77** (Packet driver works on every bus width it accepts): on a bus narrower than 8 bits the packet driver never ends; other widths that are not whole bytes raise.
* **C78** (Packet interface configuration is checked on construction): a channel wider than 128 bits raises TypeError while the message is being formatted.
* **C79** (An Avalon-MM master remains usable after a failed operation): an Avalon-MM operation that raises keeps the lock: all later ones hang.
* **C80** (An Avalon-MM read may follow a read at once): `read(sync=False)` right after a read writes signals in the ReadOnly phase.
* **C81** (AvalonMemory serves every burst read it accepts): read bursts requested while the memory is returning another one are lost.
* **C82** (An OPB write presents its data to the peripheral): OPB `write` drives `DBus_out`, an output of the peripheral, instead of `DBus_in`.
* **C85** (Avalon master and memory agree on the read latency without readdatavalid): without readdatavalid, `AvalonMaster.read` samples readdata one cycle before an `AvalonMemory` with the default latency of 1 drives it, so it returns the data of the previous read.
* **C86** (A cancelled Avalon-ST send does not repeat data): a killed driver, or a cancelled send, leaves valid at 1: the word in flight is transferred at every edge at which the sink is ready.
* **C87** (A master can be used again after a call was given up): `AvalonMaster` and `OPBMaster` do not release their lock when a read or write is cancelled (`with_timeout`): every later call waits for ever. read/write (select) stay asserted, so the slave may perform the write given up many times.
* **C88** (An AXI4-Lite read returns the word of its own address even after another read was given up): after an `AXI4LiteMaster.read` was cancelled with its address accepted, the next read returns the data of the first.
* **C92** (BitDriver.stop() freezes the signal): `BitDriver.start` called while running leaves the first coroutine alive: `stop` kills only the second, the first goes on changing the signal, taking its pairs from the second one's generator.
* **C94** (Keyword arguments of append() and send() reach the driver): `append(txn, sync=False)` is accepted, and the sending coroutine then dies with TypeError (`sync` given twice), so nothing is sent any more.
* **C95** (The same bits and bytes under cocotb 1.x and 2.x): bytes or numbers too large for a signal are rejected under cocotb 2.x and silently truncated under 1.x; a one-bit Avalon-ST data signal can be monitored under 1.x only.
* **C96** (An Avalon-ST loopback test passes exactly if the expected words are the sent ones): the Avalon-ST driver puts the first byte into the low bits, the monitor by default takes it from the high bits: a loopback test passes exactly with reversed words.
* **C97** (A monitor whose construction fails reports nothing): the constructor of the packet monitor checks its arguments after its coroutine has been started: a monitor whose channel was rejected reports packets all the same.
* **C98** (Every callable can be a callback): `add_callback` needs `__qualname__`, so `functools.partial` objects are refused with AttributeError; `add_interface` fails half way, with the expected list registered.
* **C99** (Everything appended is sent, in order and without delay): `append()` in the ReadOnly phase, while the sending coroutine waits for work, resumes it in that phase; its first write raises and nothing is ever sent again.


## Per property: what is modelled and how it is proved

| Id | Model | Method |
|----|-------|--------|
| C01-C03 | `Bus.__init__`, `_add_signal`, `_caseInsensGetattr` over an arbitrary ordered member list | direct characterisation; C02 and C03 expected false of the code (missing required signal binds `None`; case-variant optional signal raises) - witnesses plus partial theorems |
| C04-C07 | `Bus.drive/capture/sample` over an arbitrary signal store | induction over the bound signals; C06 expected false for names colliding with `dict` methods |
| C08-C09 | `create_binary`, `convert_binary_to_bytes`, `binary_slice` | induction on bytes, positional arithmetic |
| C10-C14, C20 | `Driver` as a transition system (append, clear, kill, thread steps, completions, failures, blocking sends) | invariants over all runs; C14, C20 expected false - witnesses and partial |
| C15 | busy lock as transition system over any number of tasks | expected false (two waiters, or re-acquire before wake-up); partial under an explicit schedule condition |
| C16-C18 | `BitDriver`, `_next_valids`, `polled_socket_attachment` | induction on the generator / events |
| C19 | `BusDriver._driver_send` (`self.bus.value = ...` sets a Python attribute) | expected false; theorem that no signal ever changes |
| C21-C23 | `Monitor._recv`, `wait_for_recv` as transition system, `in_reset` | induction over histories; C22 expected false when two transactions arrive before the waiter runs |
| C24-C30 | `Scoreboard` | fold over received transactions; C25 exchange argument for the greedy matching; C26, C29, C30 violated in corner cases |
| C31-C33 | Avalon-ST driver (coroutine) and monitor (fold) | induction on words and on the schedule |
| C34-C43 | Avalon-ST packet driver and monitor | simulation: driver trace is a well-formed trace; monitor decodes every well-formed trace; C39, C40, C42, C43 violated |
| C44 | `AvalonMaster.read/write` | induction on the schedule |
| C45-C49 | `AvalonMemory` | refinement to a byte memory; FIFO response queue invariant; C48 partially violated (write in ReadOnly phase), C49 violated |
| C50-C53 | argument checks | arithmetic |
| C54-C55, C61-C62, C64 | channel coroutines | induction on the schedule; C55 violated for data_latency>0 |
| C56-C60 | lane arithmetic against an AXI byte-memory spec | bit/byte extensionality; C58 violated for WRAP bursts shorter than the bus |
| C63 | the five locks as queues (`Model/AxiQueue.lean`), any number of transactions and any interleaving | invariants over all executions; violated if an address is refused |
| C65-C66 | `AXI4Slave` coroutines | expected false: writes in ReadOnly phase raise; theorem for every schedule |
| C67-C71 | XGMII driver and monitor | bit extensionality, induction on the frame; C70 violated: `create_binary` is never imported in drivers/xgmii.py |
| C72-C74 | OPB | induction on the schedule; C73, C74 violated (write in ReadOnly phase; lock never released) |
| C75 | `Bus` with an instance dictionary (`Model/BusNames.lean`) | invariant of construction; refinement to `Model/Bus.lean` for names that do not clash |
| C76-C78 | Avalon-ST drivers, error paths and configurations | direct; loops by induction |
| C79-C80 | `AvalonMaster`, error paths and consecutive operations | direct |
| C81 | `AvalonMemory` | witness; the pins over a whole schedule of read bursts, by induction on the cycles left (one iteration of the loop each) |
| C82 | OPB `write` | no execution changes `DBus_in` |
| C83 | sends with pauses and generator changes (`Model/Session.lean`), monitor and scoreboard together | composition of C34, C35 (session forms) and C24 |
| C84 | `AvalonMaster` (`Model/MmUse.lean`: operations one after the other) and `AvalonMemory` on one bus | joint invariant by induction over operations; causality of coroutines gives a joint run of every length |
| C85 | the same without readdatavalid | witness; proved for latency 0; for any latency the words on their way are an invariant (`Proof/MmStale.lean`), which gives exactly what the reads return |
| C86 | cancellation (`Model/Cancel.lean`) of sends of `AvalonST` and `AvalonSTPkts` | witness; what a send has done so far (`Passes`) when it is stopped at any edge |
| C87 | cancellation of calls of `AvalonMaster` and `OPBMaster` | the lock is held until a call returns, by induction over the program; a call made then never ends |
| C88 | cancellation of `AXI4LiteMaster.read`, a slave answering in order | witness; counting requests and answers |
| C89 | `bin/combine_results.py` on XML trees | induction over the suites read |
| C90 | the same, exit status | the test cases of the result are those of the files (C89) |
| C91 | the constructors | unfolding; for AXI, assignments by name on a bus of any signals (`Model/Construct.lean`) |
| C92 | `BitDriver` with any history of `start`, `stop` and edges (`Model/BitDriver.lean`) | invariant: at most the coroutine started last is alive; witness for two |
| C93 | `_wait_for_signal`, `_wait_for_nsignal` | induction over the cycles waited |
| C94 | Python's rules for keyword arguments, along the calls from `append` and `send` (`Model/Kwargs.lean`) | unfolding |
| C95 | `_compat.py` under 1.x, with what it uses of `BinaryValue` (`Model/Compat1.lean`), compared with 2.x | arithmetic on bit strings; witnesses |
| C96 | `AvalonST` driver, monitor and `Scoreboard` together | stream refinement (C31) and the monitor's description (C33), then the scoreboard's verdict |
| C97 | the monitor's constructor together with the coroutine it leaves behind (`Model/Failed.lean`) | induction over the trace |
| C98 | `add_callback` and `add_interface` with callables that may lack `__qualname__` | induction over the transactions |
| C99 | `_send_thread` in time (`Model/QueueBus.lean`) with `AvalonST._driver_send` and `AvalonSTPkts._driver_send`; the schedule of `append()` is an arbitrary monotone function of cycle and phase | induction over the turns of the thread; a trace invariant relating consecutive edges for promptness; for delivery, an account of the edges at which the sink is ready: each is a transfer or an idle edge of the generator |
| C100, C102 | sequences of calls of one master by a test that catches protocol errors (`Model/AxiUse.lean`); the memory, which may refuse requests (C102) or not (C100), is a specification that watches all channels and restricts only the answers (`Spec/AxiUse.lean`) | the trace theorems of C54 to C59 give what the memory accepts; induction over the calls; with deadlines for the memory, a count of the edges every call can take (`Proof/AxiLive.lean`) |
| C103 | two tasks that use one master, one writing and one reading, on the same clock edges (`Model/AxiPar.lean`); the memory is that of C100, watching the common trace; `axEnd` is the edge at which a step ends, `ReadSeen` what a read returns of a memory that changes (`Spec/AxiPar.lean`) | the write part of the memory sees the first task alone and the read part the second one, the content of the memory as a function of the edge linking them; induction over the steps of each task |
| C101 | the testbench of the examples (`Model/RefModel.lean`): model as callback of the input monitor, `stop()`; arbitrary interleavings of events | simulation by a scoreboard whose expected list is extended from outside; an exact characterisation per interface by induction over the history |
| C104 | the scoreboard of C25 and the testbench of C101, with any reorder depths; `Explained` says how transactions are paired with expected values (`Spec/Window.lean`) | exchange argument: of two acceptable values in the window the earlier may be taken, whatever comes later; induction over the history for all interfaces at once |
| C105 | the transfers of C01, C05, C08, C13, C15, C52-C62 and C75 as coroutines; the state of the signals when they end | backwards through the coroutine: what its last steps leave, and what the steps after a write keep; an error response can only come from the response phase |
| C106 | calls with the moments they are made at; one first-come first-served lock for each of AW, W, B, AR and R, the holder of which runs the coroutine of that channel (`Model/AxiMany.lean`); the memory queues the requests it accepts and answers them in order (`Spec/AxiMany.lean`) | for each channel an induction over the calls gives what is offered, so what is transferred, by any edge (`Proof/AxiMany.lean`, `AxiManyCalls`); what the memory has carried out is a function of those counts (`AxiPipe`); the k-th response and the k-th burst belong to the k-th call by induction over the edges (`AxiManyResp`, `AxiManyRead`); calls return when the counts of answers say so (`AxiManyCore`), and the counts grow within every window of N edges (`AxiManyLive`) |
| C107 | any number of tasks, each with its calls and pauses; the coroutine of a call as a program that stops at each wait; lock and event of `Driver`; tasks that are due are resumed in any order (`Model/MmTasks.lean`) | the program of a call is the coroutine of `Model/AvalonMM.lean` (`Proof/MmTasksProg.lean`); invariant: the trace is that of one task making the calls in the order of the lock, up to where the holder is (`MmTasks`); each task makes its calls in order, and edges nobody uses are pauses of all unfinished tasks (`MmTasksAll`); then C84; two tasks that pause keep the lock (`MmTasksDuo`) |
| C108 | the traces of the models of C106 (`axMany`), C84 (`mmUse`), C107, the sessions and queues of the Avalon-ST drivers, and sequences of OPB calls (`opbUse`); `Held` in `Spec/Held.lean` speaks of two neighbouring cycles of the trace | Hoare triples over the coroutine that say that each cycle follows from the one before it (`Proof/Held.lean`), for each driver (`HeldAxi`, `HeldBus`); the pending offer is part of the state the triples speak of; the witnesses are traces |
| C109 | driver and monitor of C69 with `crc32` of `Model/Crc.lean`, the bitwise definition of `zlib.crc32`; `OnLine` in `Spec/XgLine.lean` says what may happen between them | the check sum is affine in the bits of the message, one step of the register is a bijection; a burst of up to 32 bits is a non-zero start value, two bits are one step count and the register returns to a value only after 2^32-1 steps: for each prime divisor of it the power is computed (`Proof/Crc.lean`); the monitor of C69 per frame (`Proof/XgLine.lean`) |
| C110 | the model of C10–C14 with callbacks that call `append` and `clear` (`Model/DriverCb.lean`) | a history with such callbacks ends in the same state as one in which somebody else makes the same calls just before the send is completed; then C10–C14 |
| C111 | the loop over the callbacks as a step function on the position and the list, which callbacks may extend (`Model/SharedObj.lean`) | invariant over the iterations: the callbacks called are the first ones of the list, the list is the old one and what those called added; measures for ending, and an invariant that there is always a further one for not ending |
| C112 | objects with contents; the driver of C10 with references in the queue; a send looks at its object at any moment before it completes (`Model/SharedObj.lean`) | witness; invariant: what was sent, then the objects waiting with their contents, is what was appended |
| C113 | the loop of C111, in which callbacks may change the contents of the transaction | witness; the contents seen in turn are part of the invariant of C111 |
| C114 | the coroutine of the memory over whole executions, without and with random waits | each burst run to its end from the equations of the model; induction on the sequence of bursts; with waits the bursts are recognised in the cycles as they were (master and memory), the outcome of a write burst says that after its last beat there is only waitrequest; witnesses for gaps and bursts without pause |
| C115 | the driver and monitor of C35 and C36; a sink that looks at the ready of L edges before is the specification (`Spec/ReadyLatency.lean`) | the two ways of counting agree when ready is steady, then C35 and C36; witnesses; the option does not occur in the model |
| C116 | the names of `BusDriver` and `BusMonitor` as functions of the arguments of the constructors | decimal numerals are injective and contain no underscore, so the text splits at the last one; witnesses |
| C117 | the loop of the monitor of C36, with the configuration as part of the trace (`Model/PktsReconf.lean`) | the proof of C36, with the layout of every beat taken from the configuration at its edge |
| C118 | the device of examples/endian_swapper edge by edge, the setter, both monitors with the order they run in, the scoreboard of C101 (`Model/EndianSwapper.lean`) | an invariant of the device relates each taken beat to the one that comes out and to the byte order then set; a property of the driver's trace (start of packet); then C117, C34, C101 |
| C119 | the device of examples/axi_lite_slave edge by edge (`Model/AxiDemo.lean`) in a closed loop with the master of C100: the inputs in the trace are required to be the pins of the device | what the master does is known from C54 to C58 (request held until accepted, one response); the device goes through its states accordingly; induction on the calls |
| C120 | the flip-flop of examples/dff, the driver of C92 and the scoreboard of C101 (`Model/SmallExamples.lean`) | the output is the initial value followed by the inputs; the output is never ahead of the input by more than the initial value, by induction on the edges; then C101 |
| C121 | the device and the randomised test of examples/mean edge by edge (`Model/SmallExamples.lean`) | partial sums stay below 2^(w+k), by induction; the expected list holds the lots not yet reported, by induction on the edges; then C101 |
| C122 | as C106, with a moment at which each call of `write` is given up; its address and data tasks go on (`Model/AxiGiveUp.lean`) | the signals are those of C106; a call that is not given up takes a response at the latest when that to its own write is given, by induction on the calls in the order of the lock |
| C123 | as C122 | invariant: when the lock comes to call k at most k responses have been given |
| C124 | `cancelAfter` of C86 with `axiRead` | the address is taken or still on offer, and the outputs do not change afterwards |
| C125 | `FifoDev` (queue of avalon_streaming.sv), `streamTest` (driver, monitor and scoreboard at the same clock) | invariant: the expected list is the reports due and the words in the device; drain lemma for the final wait; a bound on each wait for ready; simulations exist by causality of the driver |
| C126 | `MmHw` (memory of mm_reader.sv), `mmUse` | induction on the operations: the memory holds what was written, and the pins at the edge after a request are the word asked for |
| C127 | `AxTest` (calls and expected words of test_axi4.py), `AxMem` as in C100 | C100 gives the words read; they are compared with the expected ones bit by bit |
| C128 | `pyLen`, `masterLen`, `masterBool` | arithmetic; that no call below the length raises OverflowError by a rule for every operation of a coroutine |
| C129 | `MonObj` (monitor, its coroutine, tasks in wait_for_recv), any decoder | invariants over the history: without a running coroutine nothing is received and no task is woken |
| C130 | `axTry`: the calls of a test that catches all exceptions, with the memory of C100 | a rejected call has the trace of a pause (0 or 1 edges): reduction to C102; concrete runs for the counterexamples |
| C131 | `Drv`: queue and sending coroutine of a driver | induction over the history after the kill; C10 and C13 for the one before |
