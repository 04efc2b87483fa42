{"id": "C01", "title": "Bus attributes bind to the right entity member", "statement": "When Bus(entity, name, signals, optional_signals, bus_separator) completes with the default case-insensitive lookup and no array index, then for every required signal the attribute bus.<attr> is the first member of dir(entity) whose name equals name+bus_separator+signal (just signal for a nameless bus) up to case folding; in particular, when exactly one member has that name up to case, bus.<attr> is that member. Members the bus was not asked for are never bound.", "quantifier": "every entity member list, bus name, separator, signal list/dict", "why_tests_cant": "Name spaces are unbounded and collisions up to case depend on the whole member list; tests use a handful of DUTs.", "anchors": ["src/cocotb_bus/bus.py:Bus.__init__", "src/cocotb_bus/bus.py:Bus._caseInsensGetattr", "src/cocotb_bus/bus.py:Bus._add_signal", "src/cocotb_bus/bus.py:_build_sig_attr_dict"]}
{"id": "C02", "title": "A missing required signal is reported when the bus is built", "statement": "If some required signal has no matching member on the entity, constructing the Bus fails instead of producing a bus object with that signal unusable.", "quantifier": "every entity member list and signal list", "why_tests_cant": "Needs all entities and all signal sets; existing tests only construct complete buses.", "anchors": ["src/cocotb_bus/bus.py:Bus._add_signal", "src/cocotb_bus/bus.py:Bus._caseInsensGetattr"]}
{"id": "C03", "title": "Optional signals may be absent", "statement": "If all required signals resolve, then whatever the optional signals and whichever of them exist on the entity, constructing the Bus succeeds; an optional attribute exists on the bus exactly when the entity has the corresponding member.", "quantifier": "every entity member list, every optional signal list, both settings of case_insensitive", "why_tests_cant": "Depends on the combination of case variants present on the entity, which tests only sample.", "anchors": ["src/cocotb_bus/bus.py:Bus.__init__", "src/cocotb_bus/bus.py:Bus._caseInsensGetattr"]}
{"id": "C04", "title": "drive() writes exactly the attributes the object has", "statement": "bus.drive(obj) sets every bus signal whose attribute exists on obj to that attribute's value, leaves every other signal unchanged, and never fails because an attribute is missing.", "quantifier": "every bus (set of bound signals), every object, every previous signal state", "why_tests_cant": "Universally quantified over objects and prior signal values.", "anchors": ["src/cocotb_bus/bus.py:Bus.drive"]}
{"id": "C05", "title": "drive(strict=True) and sample(strict=True) reject incomplete objects", "statement": "bus.drive(obj, strict=True) raises AttributeError if and only if some bus signal has no attribute on obj; when it does not raise, every bus signal carries obj's value. When it raises, the signals listed before the first missing one have been driven and no others. bus.sample(obj, strict=True) raises under the same condition.", "quantifier": "every bus, object and prior signal state", "why_tests_cant": "Universally quantified over objects; partial-failure states are not sampled by tests.", "anchors": ["src/cocotb_bus/bus.py:Bus.drive", "src/cocotb_bus/bus.py:Bus.sample"]}
{"id": "C06", "title": "capture() is a faithful, read-only snapshot", "statement": "c = bus.capture() has exactly the bus's signal names as keys, each mapped to the value of that signal at the time of the call, and is not changed by later drives; reading attribute c.<attr> of any bus signal returns its captured value; reading any attribute that is not a bus signal, and setting or deleting any attribute, raises RuntimeError.", "quantifier": "every bus, every signal state, every attribute name, every later sequence of drives", "why_tests_cant": "Quantifies over all attribute names (including those that collide with dict methods) and later histories.", "anchors": ["src/cocotb_bus/bus.py:Bus.capture"]}
{"id": "C07", "title": "drive / capture / sample round-trip", "statement": "If the bus signals are bound to distinct handles, then after bus.drive(obj) a capture shows obj's value for every attribute obj has and the old value for every other signal, and bus.sample(obj2) copies the signal values into exactly the attributes obj2 already has, adding none and leaving its other attributes alone.", "quantifier": "every bus with distinct handles, all objects, all signal states", "why_tests_cant": "Universally quantified over objects and signal states.", "anchors": ["src/cocotb_bus/bus.py:Bus.drive", "src/cocotb_bus/bus.py:Bus.capture", "src/cocotb_bus/bus.py:Bus.sample"]}
{"id": "C08", "title": "bytes <-> bit-vector conversion is lossless in both byte orders", "statement": "For every byte string b and either byte order, create_binary(b, 8*len(b), big_endian) converted back with convert_binary_to_bytes and the same byte order is b; converting back with the other byte order gives b reversed; a bit_count larger than 8*len(b) pads with zero bytes at the end of the string as read back in the same byte order (whole-byte widths); a smaller bit_count is rejected with ValueError.", "quantifier": "every byte string of any length, every width, both byte orders", "why_tests_cant": "Unbounded lengths and widths.", "anchors": ["src/cocotb_bus/_compat.py:create_binary", "src/cocotb_bus/_compat.py:convert_binary_to_bytes"]}
{"id": "C09", "title": "binary_slice selects the addressed bits", "statement": "binary_slice(v, start, end) is the substring of str(v) from position start to end inclusive, so reading byte lanes [k, k+n) of a W-byte word returns exactly the 8n bits of those lanes.", "quantifier": "every vector, every in-range slice, every lane range", "why_tests_cant": "Unbounded widths.", "anchors": ["src/cocotb_bus/_compat.py:binary_slice", "src/cocotb_bus/drivers/amba.py:AXI4Master.read.shift_and_mask"]}
{"id": "C10", "title": "Queued transactions are sent in append order, each at most once", "statement": "For every history of append(), clear(), kill(), scheduler activity and transaction completions, the sequence of transactions the driver has started to send, followed by those still queued, is exactly the sequence of appended transactions minus those that were queued when clear() was called, in append order.", "quantifier": "every interleaving of append/clear/kill/completion/failure and scheduler steps", "why_tests_cant": "Quantifies over all histories and interleavings.", "anchors": ["src/cocotb_bus/drivers/__init__.py:Driver.append", "src/cocotb_bus/drivers/__init__.py:Driver.clear", "src/cocotb_bus/drivers/__init__.py:Driver._send_thread"]}
{"id": "C11", "title": "No lost wake-up: a queued transaction is always eventually picked up", "statement": "In every reachable state where the driver's queue is non-empty and its sending coroutine is alive, the coroutine is either busy sending or runnable, never asleep; consequently, whenever all sends complete, letting the scheduler run drains the queue.", "quantifier": "every reachable state of every interleaving", "why_tests_cant": "A lost wake-up is a schedule-dependent race that tests cannot exclude.", "anchors": ["src/cocotb_bus/drivers/__init__.py:Driver._send_thread", "src/cocotb_bus/drivers/__init__.py:Driver.append"]}
{"id": "C12", "title": "Only the first transaction of a back-to-back run re-synchronises", "statement": "A queued transaction is sent with sync=True if and only if it is the first one sent since the sending coroutine last found the queue empty; all others of the run are sent with sync=False.", "quantifier": "every history of appends and completions", "why_tests_cant": "History-dependent flag over unbounded histories.", "anchors": ["src/cocotb_bus/drivers/__init__.py:Driver._send_thread"]}
{"id": "C13", "title": "Completion notification is exact", "statement": "The event and the callback given to append() are fired exactly once each, after that transaction's send completes and before the next queued transaction is started, in transaction order; they are never fired for transactions that were cleared, that failed, or that are still queued or in flight.", "quantifier": "every history", "why_tests_cant": "Quantifies over all histories.", "anchors": ["src/cocotb_bus/drivers/__init__.py:Driver._send", "src/cocotb_bus/drivers/__init__.py:Driver._send_thread"]}
{"id": "C14", "title": "A failing transaction does not stop later ones", "statement": "If sending one queued transaction raises (or its callback raises), the transactions queued after it are still sent.", "quantifier": "every history containing a failure", "why_tests_cant": "Crash-point property over all histories.", "anchors": ["src/cocotb_bus/drivers/__init__.py:Driver._send_thread"]}
{"id": "C15", "title": "Bus access is mutually exclusive", "statement": "At most one operation of a driver that uses the driver's busy lock (AvalonMaster and OPBMaster read/write) is between acquiring and releasing it at any time, for any number of concurrent callers and any scheduling.", "quantifier": "every number of tasks, every interleaving of acquire/release/wake-up", "why_tests_cant": "Schedule-dependent race.", "anchors": ["src/cocotb_bus/drivers/__init__.py:Driver._acquire_lock", "src/cocotb_bus/drivers/__init__.py:Driver._release_lock"]}
{"id": "C16", "title": "BitDriver produces the programmed on/off waveform", "statement": "After start(generator), the values of the signal sampled at successive rising edges are, for each (on, off) pair in turn, on ones followed by off zeros; zero-length phases contribute nothing. When the generator is exhausted the coroutine fails with an error and leaves the signal at 0; calling it with no generator at all is an error.", "quantifier": "every sequence of pairs, every number of clock edges", "why_tests_cant": "Unbounded sequences.", "anchors": ["src/cocotb_bus/drivers/__init__.py:BitDriver._cr_twiddler"]}
{"id": "C17", "title": "valid_generator gating", "statement": "A validated driver sends its words in groups: with generator pairs (on1,off1),(on2,off2),... with zero-on pairs discarded, the first on1 words are sent without an inserted gap, then exactly off1 idle cycles precede word on1+1, and so on; after the generator is exhausted, or with no generator, no gap is ever inserted.", "quantifier": "every finite or infinite generator prefix, every number of words", "why_tests_cant": "Unbounded generator histories.", "anchors": ["src/cocotb_bus/drivers/__init__.py:ValidatedBusDriver._next_valids", "src/cocotb_bus/drivers/avalon.py:AvalonST._driver_send"]}
{"id": "C18", "title": "Socket attachment forwards payloads in order", "statement": "polled_socket_attachment appends to the driver exactly the non-empty payloads returned by the socket, in order and each once, polling at most once per clock edge; would-block results append nothing and do not end it, an empty payload ends it normally, any other socket error ends it with that error.", "quantifier": "every sequence of socket results", "why_tests_cant": "Unbounded event sequences.", "anchors": ["src/cocotb_bus/drivers/__init__.py:polled_socket_attachment"]}
{"id": "C19", "title": "The base BusDriver puts the transaction on the bus", "statement": "After `await driver.send(txn)` on a BusDriver, each bus signal named by an attribute of txn carries that attribute's value.", "quantifier": "every transaction object and bus", "why_tests_cant": "Universal over transactions.", "anchors": ["src/cocotb_bus/drivers/__init__.py:BusDriver._driver_send"]}
{"id": "C20", "title": "Blocking send does not overlap queued sends", "statement": "A transaction sent with the blocking send() is never on the bus at the same time as one taken from the queue.", "quantifier": "every interleaving of send(), append() and scheduler steps", "why_tests_cant": "Schedule-dependent race.", "anchors": ["src/cocotb_bus/drivers/__init__.py:Driver.send", "src/cocotb_bus/drivers/__init__.py:Driver._send_thread"]}
{"id": "C21", "title": "Monitor delivers each transaction exactly once to every consumer", "statement": "For every sequence of received transactions, with callbacks registered: each callback sees exactly the received sequence, in order, and callbacks are invoked in registration order for each transaction and the queue stays empty; with no callback registered: len(monitor) and monitor[i] expose exactly the received sequence. In both cases the received-transaction counter equals the number received.", "quantifier": "every sequence of transactions, every list of callbacks, callbacks registered at any time", "why_tests_cant": "Unbounded histories.", "anchors": ["src/cocotb_bus/monitors/__init__.py:Monitor._recv", "src/cocotb_bus/monitors/__init__.py:Monitor.__len__", "src/cocotb_bus/monitors/__init__.py:Monitor.__getitem__"]}
{"id": "C22", "title": "wait_for_recv returns the transaction that ended the wait", "statement": "A task blocked in wait_for_recv() is released by the first transaction received after it started waiting and returns that transaction; it never returns one received before it started waiting; with a timeout it returns None if the timeout fires first.", "quantifier": "every interleaving of receptions, waits, wake-ups and timeouts", "why_tests_cant": "Schedule-dependent.", "anchors": ["src/cocotb_bus/monitors/__init__.py:Monitor.wait_for_recv", "src/cocotb_bus/monitors/__init__.py:Monitor._recv"]}
{"id": "C23", "title": "in_reset reflects the reset pins", "statement": "in_reset is the negation of reset_n when a reset_n was given, otherwise the value of reset when given, otherwise False.", "quantifier": "all pin values and configurations", "why_tests_cant": "Small finite domain, but monitors rely on it at every cycle of every trace.", "anchors": ["src/cocotb_bus/monitors/__init__.py:BusMonitor.in_reset"]}
{"id": "C24", "title": "In-order scoreboard passes exactly when the output is as expected", "statement": "With reorder_depth=0 and fail_immediately=False, after receiving transactions R against expected list E, result succeeds if and only if R has the same length as E and every received transaction equals, with the same type, the expected transaction at its position; the error counter equals the number of mismatching positions plus the number of transactions received beyond the end of E.", "quantifier": "every expected list and every received sequence", "why_tests_cant": "Unbounded sequences.", "anchors": ["src/cocotb_bus/scoreboard.py:Scoreboard.add_interface.check_received_transaction", "src/cocotb_bus/scoreboard.py:Scoreboard.compare", "src/cocotb_bus/scoreboard.py:Scoreboard.result"]}
{"id": "C25", "title": "Reordering window", "statement": "With reorder_depth=d, result succeeds if and only if the received sequence can be obtained from the expected list by repeatedly taking one of the first d+1 remaining elements; in particular success implies the received sequence is a permutation of the expected one.", "quantifier": "every expected list, every received sequence, every d", "why_tests_cant": "Unbounded sequences, and the greedy matching needs an exchange argument.", "anchors": ["src/cocotb_bus/scoreboard.py:Scoreboard.add_interface.check_received_transaction"]}
{"id": "C26", "title": "Unexpected or missing transactions are never silently accepted", "statement": "If result succeeds then on every interface with an expected list exactly as many transactions were received as were expected, whatever the reorder depth, strictness, interleaving of interfaces and later additions to the expected lists.", "quantifier": "every set of interfaces, every interleaving", "why_tests_cant": "Unbounded histories over several interfaces.", "anchors": ["src/cocotb_bus/scoreboard.py:Scoreboard.result", "src/cocotb_bus/scoreboard.py:Scoreboard.add_interface"]}
{"id": "C27", "title": "fail_immediately raises at the first discrepancy", "statement": "With fail_immediately=True the monitor callback raises AssertionError at exactly the first received transaction that mismatches or is unexpected, with the error counter at 1, and raises nothing before.", "quantifier": "every sequence", "why_tests_cant": "Unbounded sequences.", "anchors": ["src/cocotb_bus/scoreboard.py:Scoreboard.compare", "src/cocotb_bus/scoreboard.py:Scoreboard.add_interface.check_received_transaction"]}
{"id": "C28", "title": "strict_type", "statement": "With strict_type=True a received transaction is accepted only if its type is identical to the expected one's and the values compare equal; with strict_type=False exactly if their string representations are equal.", "quantifier": "all pairs of transactions", "why_tests_cant": "Universal over transactions.", "anchors": ["src/cocotb_bus/scoreboard.py:Scoreboard.compare"]}
{"id": "C29", "title": "A rejected add_interface has no effect", "statement": "If add_interface raises TypeError (not a monitor, or compare_fn not callable) the scoreboard's later verdict is the same as if it had not been called.", "quantifier": "every scoreboard state and argument", "why_tests_cant": "Universal over states.", "anchors": ["src/cocotb_bus/scoreboard.py:Scoreboard.add_interface"]}
{"id": "C30", "title": "Scoreboard works with every monitor in the package", "statement": "A transaction delivered by any of the package's monitors to an interface registered with add_interface is compared against the expected output (it does not fail for a reason unrelated to the transaction).", "quantifier": "all monitors of the package, all transactions", "why_tests_cant": "Requires considering every monitor class.", "anchors": ["src/cocotb_bus/scoreboard.py:Scoreboard.add_interface.check_received_transaction", "src/cocotb_bus/monitors/xgmii.py:XGMII.__init__"]}
{"id": "C31", "title": "Avalon-ST: every word crosses exactly once", "statement": "For every sequence of words sent through the Avalon-ST driver, every valid_generator and every behaviour of ready (including X), the words accepted at rising edges (valid and ready both 1, or valid 1 without a ready signal) are exactly the sent words in order, each once; a word not yet accepted keeps valid and data stable.", "quantifier": "every word sequence, ready schedule, valid generator", "why_tests_cant": "All backpressure schedules, unbounded length.", "anchors": ["src/cocotb_bus/drivers/avalon.py:AvalonST._driver_send", "src/cocotb_bus/drivers/avalon.py:AvalonST._wait_ready"]}
{"id": "C32", "title": "Avalon-ST: driver and monitor agree on byte order", "statement": "A bytes value sent by the Avalon-ST driver is reported by an Avalon-ST monitor on the same bus with the same configuration as the same bytes.", "quantifier": "every byte string of bus width, both settings of firstSymbolInHighOrderBits", "why_tests_cant": "Universal over data.", "anchors": ["src/cocotb_bus/drivers/avalon.py:AvalonST._driver_send", "src/cocotb_bus/monitors/avalon.py:AvalonST._monitor_recv"]}
{"id": "C33", "title": "Avalon-ST monitor reports exactly the accepted words", "statement": "For every pin trace without unresolvable data on accepted cycles, the Avalon-ST monitor reports exactly the data of the cycles in which valid (and ready if present) is 1, in order.", "quantifier": "every pin trace", "why_tests_cant": "Unbounded traces.", "anchors": ["src/cocotb_bus/monitors/avalon.py:AvalonST._monitor_recv"]}
{"id": "C34", "title": "Avalon-ST packets round-trip", "statement": "For every sequence of non-empty byte strings sent through the Avalon-ST packet driver on a bus of n data bytes with 8-bit symbols, every ready schedule and valid generator, a packet monitor on the same bus with the same configuration reports exactly those byte strings in order.", "quantifier": "every packet sequence and length, every n, both symbol orders, every ready schedule, every valid generator", "why_tests_cant": "Unbounded lengths and all backpressure schedules.", "anchors": ["src/cocotb_bus/drivers/avalon.py:AvalonSTPkts._send_string", "src/cocotb_bus/monitors/avalon.py:AvalonSTPkts._monitor_recv"]}
{"id": "C35", "title": "Avalon-ST packet framing on the wire", "statement": "For each packet the accepted beats are ceil(len/n) in number; startofpacket is 1 exactly on the first, endofpacket is 1 exactly on the last, empty on the last beat is n*beats-len and data carries the packet bytes in the configured symbol order; between rising edges a beat that has not been accepted keeps all its signals stable.", "quantifier": "every packet, width, ready schedule, valid generator", "why_tests_cant": "Unbounded lengths, all schedules.", "anchors": ["src/cocotb_bus/drivers/avalon.py:AvalonSTPkts._send_string"]}
{"id": "C36", "title": "Packet monitor decodes every well-formed trace", "statement": "For every trace consisting of well-formed packets whose beats are separated by arbitrarily many invalid or in-reset cycles (fewer than the timeout), not only traces produced by the driver, the packet monitor reports exactly the packets, with empty symbols removed, and with the channel when asked.", "quantifier": "every well-formed trace", "why_tests_cant": "Unbounded traces.", "anchors": ["src/cocotb_bus/monitors/avalon.py:AvalonSTPkts._monitor_recv"]}
{"id": "C37", "title": "Packet monitor detects framing violations", "statement": "A second startofpacket before endofpacket, data outside a packet, a channel above maxChannel and a channel change inside a packet each raise AvalonProtocolError at the cycle of the violation, and nothing is reported for the offending packet.", "quantifier": "every monitor state and every following cycle", "why_tests_cant": "Universal over histories.", "anchors": ["src/cocotb_bus/monitors/avalon.py:AvalonSTPkts._monitor_recv"]}
{"id": "C38", "title": "In-packet timeout is exact", "statement": "With invalidTimeout=T>0 the monitor raises the timeout error exactly when, inside a packet, T cycles that are not in reset and not valid have occurred since the last valid cycle; with T=0, or outside a packet, it never does.", "quantifier": "every trace, every T", "why_tests_cant": "Unbounded traces.", "anchors": ["src/cocotb_bus/monitors/avalon.py:AvalonSTPkts._monitor_recv"]}
{"id": "C39", "title": "Undefined data at end of packet is a protocol error", "statement": "If, after removing the empty symbols, the last word of a packet contains X or Z, the packet monitor raises AvalonProtocolError.", "quantifier": "every monitor state and last word", "why_tests_cant": "Universal over histories.", "anchors": ["src/cocotb_bus/monitors/avalon.py:AvalonSTPkts._monitor_recv"]}
{"id": "C40", "title": "Reset discards a partial packet", "statement": "If the bus is reset in the middle of a packet, the packet that starts after reset is reported correctly.", "quantifier": "every trace containing a reset", "why_tests_cant": "Universal over histories.", "anchors": ["src/cocotb_bus/monitors/avalon.py:AvalonSTPkts._monitor_recv"]}
{"id": "C41", "title": "Packet channel handling", "statement": "A packet sent with channel=c on a bus with a channel signal and 0<=c<=maxChannel carries channel c on every accepted beat and is reported by a report_channel monitor as (packet, c); a packet sent with a channel outside that range raises AssertionError and puts no valid beat on the bus; a channel on a bus with no channel signal raises AssertionError.", "quantifier": "every packet, channel, schedule", "why_tests_cant": "Unbounded lengths, all schedules.", "anchors": ["src/cocotb_bus/drivers/avalon.py:AvalonSTPkts._send_string", "src/cocotb_bus/monitors/avalon.py:AvalonSTPkts._monitor_recv"]}
{"id": "C42", "title": "Packets given as iterables of bus words are driven", "statement": "Sending an iterable of word objects through the Avalon-ST packet driver puts each word's attribute values on the like-named signals in successive accepted cycles.", "quantifier": "every iterable of words", "why_tests_cant": "Universal over words.", "anchors": ["src/cocotb_bus/drivers/avalon.py:AvalonSTPkts._send_iterable"]}
{"id": "C43", "title": "Symbol width other than 8 bits", "statement": "The packet round-trip also holds when dataBitsPerSymbol is configured to another divisor of the bus width.", "quantifier": "every dataBitsPerSymbol", "why_tests_cant": "Universal over configurations.", "anchors": ["src/cocotb_bus/drivers/avalon.py:AvalonSTPkts._send_string", "src/cocotb_bus/monitors/avalon.py:AvalonSTPkts._monitor_recv"]}
{"id": "C44", "title": "Avalon-MM master read and write transfers", "statement": "AvalonMaster.write(a, v) presents write=1 with address a, data v and all byte enables on every rising edge from the first one after it is driven until and including the first one at which waitrequest is low, and on no other; read(a) does the same with read=1 and returns the readdata of the first cycle from then on in which readdatavalid is 1 (the cycle after acceptance when there is no readdatavalid); both leave read/write deasserted.", "quantifier": "every address, value and every waitrequest/readdatavalid schedule", "why_tests_cant": "All slave timings.", "anchors": ["src/cocotb_bus/drivers/avalon.py:AvalonMaster.read", "src/cocotb_bus/drivers/avalon.py:AvalonMaster.write", "src/cocotb_bus/drivers/__init__.py:BusDriver._wait_for_nsignal"]}
{"id": "C45", "title": "AvalonMemory is coherent", "statement": "For every sequence of single (non-burst) reads and writes applied to AvalonMemory, a read of an address returns, byte by byte, the last value written to that byte with its byte enable set (initial contents otherwise); a read of a never-written, uninitialised address returns an all-X word.", "quantifier": "every sequence of reads, writes and byte enables", "why_tests_cant": "Unbounded histories: refinement to an abstract memory.", "anchors": ["src/cocotb_bus/drivers/avalon.py:AvalonMemory._respond", "src/cocotb_bus/drivers/avalon.py:AvalonMemory._do_response"]}
{"id": "C46", "title": "AvalonMemory answers every read exactly once, in order, with at least the minimum latency", "statement": "For every sequence of single reads and every random latency choice within [readlatency_min, readlatency_max], the responses (readdatavalid=1 cycles) correspond one to one and in order to the read requests, and each appears at least readlatency_min+1 clock edges after its request; with equal min and max L and spaced requests, exactly L+1.", "quantifier": "every request sequence, every random latency outcome", "why_tests_cant": "All random outcomes, unbounded histories.", "anchors": ["src/cocotb_bus/drivers/avalon.py:AvalonMemory._pad", "src/cocotb_bus/drivers/avalon.py:AvalonMemory._do_response", "src/cocotb_bus/drivers/avalon.py:AvalonMemory._respond"]}
{"id": "C47", "title": "AvalonMemory burst read returns consecutive words", "statement": "A burst read of burstcount words from an aligned, fully initialised region returns, in order, the little-endian words formed from the consecutive bytes of memory.", "quantifier": "every memory, address, burst count, word size", "why_tests_cant": "Unbounded burst lengths.", "anchors": ["src/cocotb_bus/drivers/avalon.py:AvalonMemory._respond"]}
{"id": "C48", "title": "AvalonMemory burst write stores consecutive words", "statement": "A burst write stores the little-endian bytes of the successive data words at consecutive addresses and changes nothing else, whatever random waitrequest pattern is chosen; a following burst read of the region returns the words written.", "quantifier": "every memory, address, burst, random waitrequest outcome", "why_tests_cant": "All random outcomes.", "anchors": ["src/cocotb_bus/drivers/avalon.py:AvalonMemory._respond", "src/cocotb_bus/drivers/avalon.py:AvalonMemory._waitrequest", "src/cocotb_bus/drivers/avalon.py:AvalonMemory._writing_byte_value"]}
{"id": "C49", "title": "Properties of one AvalonMemory do not affect another", "statement": "Passing avl_properties to one AvalonMemory does not change the properties used by any other instance.", "quantifier": "every sequence of constructions", "why_tests_cant": "Universal over construction histories.", "anchors": ["src/cocotb_bus/drivers/avalon.py:AvalonMemory.__init__", "src/cocotb_bus/drivers/avalon.py:AvalonMemory._avalon_properties"]}
{"id": "C50", "title": "AXI burst length check", "statement": "AXI4Master.write/read reject with ValueError exactly the burst lengths that are not positive, exceed 256 for INCR, exceed 16 for FIXED, or are not 1, 2, 4, 8 or 16 for WRAP.", "quantifier": "every integer length and burst type", "why_tests_cant": "Infinite domain.", "anchors": ["src/cocotb_bus/drivers/amba.py:AXI4Master._check_length"]}
{"id": "C51", "title": "AXI beat size check", "statement": "A given beat size is accepted exactly when it is a power of two not exceeding the data bus width in bytes; AxSIZE is then its base-2 logarithm.", "quantifier": "every integer size and bus width", "why_tests_cant": "Infinite domain.", "anchors": ["src/cocotb_bus/drivers/amba.py:AXI4Master._check_size", "src/cocotb_bus/drivers/amba.py:AXI4Master._send_write_address"]}
{"id": "C52", "title": "AXI 4kB boundary check is exact", "statement": "For INCR bursts with a power-of-two beat size up to 4096 the request is rejected exactly when the bytes addressed by the burst (AXI address equations, including unaligned start) do not all lie in one 4 kB page; FIXED and WRAP bursts are never rejected by this check.", "quantifier": "every address, size, length", "why_tests_cant": "Infinite domain and unaligned corner cases.", "anchors": ["src/cocotb_bus/drivers/amba.py:AXI4Master._check_4kB_boundary_crossing"]}
{"id": "C53", "title": "Invalid AXI arguments never reach the bus", "statement": "Every call of write/read with an invalid argument raises ValueError before any bus signal changes.", "quantifier": "every argument combination", "why_tests_cant": "Universal over arguments.", "anchors": ["src/cocotb_bus/drivers/amba.py:AXI4Master.write", "src/cocotb_bus/drivers/amba.py:AXI4Master.read"]}
{"id": "C54", "title": "AXI address channels: exactly one handshake per request", "statement": "For every AWREADY (ARREADY) schedule, a write (read) produces exactly one accepted address beat, carrying the requested address, burst type, length-1 and log2(size); AWVALID/ARVALID once asserted stays asserted with stable payload until accepted and is deasserted right after; the address is not presented before address_latency further clock cycles.", "quantifier": "every ready schedule, every latency, every request", "why_tests_cant": "All slave timings.", "anchors": ["src/cocotb_bus/drivers/amba.py:AXI4Master._send_write_address", "src/cocotb_bus/drivers/amba.py:AXI4Master.read"]}
{"id": "C55", "title": "AXI write data channel: exactly one handshake per beat", "statement": "For every WREADY schedule and data_latency, a write of n values produces exactly n accepted data beats, with the n data words in order and WLAST on the last only.", "quantifier": "every ready schedule, latency, burst length", "why_tests_cant": "All slave timings.", "anchors": ["src/cocotb_bus/drivers/amba.py:AXI4Master._send_write_data"]}
{"id": "C56", "title": "AXI write has the intended memory effect (INCR)", "statement": "For every bus width W, power-of-two beat size dividing W, aligned or unaligned address, list of values and byte enables: on an AXI-compliant byte memory the beats of an INCR write change exactly the bytes address .. address+n*size-(address mod size)-1 whose byte enable is set, storing the little-endian concatenation of the values, and nothing else.", "quantifier": "every width, size, address, data, byte enables", "why_tests_cant": "Infinite arithmetic domain with unaligned/narrow corner cases.", "anchors": ["src/cocotb_bus/drivers/amba.py:AXI4Master._send_write_data", "src/cocotb_bus/drivers/amba.py:AXI4Master.write"]}
{"id": "C57", "title": "AXI FIXED write has the intended effect", "statement": "For a FIXED burst every beat addresses the same bytes: beat i writes, subject to byte enables, the low size-(address mod size) bytes of value i at address.", "quantifier": "every width, size, address, data, byte enables", "why_tests_cant": "Infinite arithmetic domain.", "anchors": ["src/cocotb_bus/drivers/amba.py:AXI4Master._send_write_data"]}
{"id": "C58", "title": "AXI WRAP transfers use the byte lanes of the AXI wrap address", "statement": "For a WRAP burst each beat's data and strobes are placed on (and read from) the byte lanes selected by the AXI wrapping address equations.", "quantifier": "every width, size, length, aligned address", "why_tests_cant": "Infinite arithmetic domain.", "anchors": ["src/cocotb_bus/drivers/amba.py:AXI4Master._send_write_data", "src/cocotb_bus/drivers/amba.py:AXI4Master.read"]}
{"id": "C59", "title": "AXI read assembles the addressed bytes", "statement": "For every bus width, size, address and length, if an AXI-compliant memory answers an INCR (or FIXED) read, read() returns the length words made of the size bytes following the start address (little-endian), the last (resp. every) one shortened to size-(address mod size) bytes; bits on lanes outside the transfer never influence the result.", "quantifier": "every width, size, address, length, memory content including X outside the transfer", "why_tests_cant": "Infinite arithmetic domain.", "anchors": ["src/cocotb_bus/drivers/amba.py:AXI4Master.read"]}
{"id": "C60", "title": "AXI write then read returns what was written", "statement": "Against an AXI-compliant memory, reading back with the same address, length, size and INCR burst after a write with all byte enables returns the values written (the last one truncated to size-(address mod size) bytes).", "quantifier": "every width, size, address, data", "why_tests_cant": "Infinite arithmetic domain.", "anchors": ["src/cocotb_bus/drivers/amba.py:AXI4Master.write", "src/cocotb_bus/drivers/amba.py:AXI4Master.read"]}
{"id": "C61", "title": "AXI read consumes exactly the beats up to RLAST, and checks their number", "statement": "For every RVALID/RREADY/RLAST schedule, read() collects each accepted R beat exactly once up to and including the first with RLAST, and raises AXIReadBurstLengthMismatch exactly when their number differs from the requested length.", "quantifier": "every schedule", "why_tests_cant": "All slave timings.", "anchors": ["src/cocotb_bus/drivers/amba.py:AXI4Master.read"]}
{"id": "C62", "title": "AXI error responses are always reported", "statement": "write() raises AXIProtocolError carrying BRESP exactly when the response is not OKAY; read() raises AXIProtocolError with the RRESP of the first non-OKAY beat exactly when there is one and return_rresp is False; with return_rresp it returns every beat with its own response.", "quantifier": "every response sequence and schedule", "why_tests_cant": "All slave behaviours.", "anchors": ["src/cocotb_bus/drivers/amba.py:AXI4Master.write", "src/cocotb_bus/drivers/amba.py:AXI4Master.read"]}
{"id": "C63", "title": "Concurrent AXI transactions are matched to their own responses", "statement": "For any number of concurrent writes (reads) on one AXI4Master, address beats, data bursts and responses are issued and consumed in the same transaction order, data bursts are not interleaved, and every caller gets the response of its own transaction from an in-order slave.", "quantifier": "every number of tasks and every interleaving", "why_tests_cant": "Schedule-dependent.", "anchors": ["src/cocotb_bus/drivers/amba.py:AXI4Master.write", "src/cocotb_bus/drivers/amba.py:AXI4Master.read", "src/cocotb_bus/drivers/amba.py:AXI4Master.__init__"]}
{"id": "C64", "title": "AXI4-Lite master", "statement": "AXI4LiteMaster.write/read perform a single full-width beat: one address handshake, one data handshake; a sequence value is rejected with ValueError; read returns the word and raises AXIProtocolError exactly for a non-OKAY response.", "quantifier": "every value, address and schedule", "why_tests_cant": "All slave timings.", "anchors": ["src/cocotb_bus/drivers/amba.py:AXI4LiteMaster.write", "src/cocotb_bus/drivers/amba.py:AXI4LiteMaster.read"]}
{"id": "C65", "title": "AXI4Slave serves writes", "statement": "When a master presents a write address and data, AXI4Slave stores the data in its memory.", "quantifier": "every request", "why_tests_cant": "Universal over requests.", "anchors": ["src/cocotb_bus/drivers/amba.py:AXI4Slave._write_data"]}
{"id": "C66", "title": "AXI4Slave serves reads", "statement": "When a master presents a read address, AXI4Slave returns the addressed memory bytes.", "quantifier": "every request", "why_tests_cant": "Universal over requests.", "anchors": ["src/cocotb_bus/drivers/amba.py:AXI4Slave._read_data"]}
{"id": "C67", "title": "XGMII lane packing is lossless", "statement": "For every number of lanes and both layouts (interleaved or not), the word built by assigning (byte, control) to every lane is decoded by the XGMII monitor into the same bytes and control bits.", "quantifier": "every lane count, layout, byte and control assignment", "why_tests_cant": "Unbounded lane count.", "anchors": ["src/cocotb_bus/drivers/xgmii.py:_XGMIIBus", "src/cocotb_bus/monitors/xgmii.py:XGMII._get_bytes"]}
{"id": "C68", "title": "XGMII layer-1 framing", "statement": "layer1(packet) is preamble+SFD, the packet padded with zeros to at least 60 bytes, and the CRC32 of the padded packet, little-endian; the length is max(len,60)+11.", "quantifier": "every packet, any length", "why_tests_cant": "Unbounded lengths.", "anchors": ["src/cocotb_bus/drivers/xgmii.py:XGMII.layer1"]}
{"id": "C69", "title": "XGMII frames round-trip", "statement": "For every sequence of packets sent through the XGMII driver on a bus of n>=1 lanes in either layout, an XGMII monitor with the same layout on the same signal reports exactly the packets (zero-padded to 60 bytes) in order, with no error logged.", "quantifier": "every packet sequence, lane count, layout", "why_tests_cant": "Unbounded lengths.", "anchors": ["src/cocotb_bus/drivers/xgmii.py:XGMII._driver_send", "src/cocotb_bus/monitors/xgmii.py:XGMII._monitor_recv"]}
{"id": "C70", "title": "The XGMII driver can be constructed and used", "statement": "Constructing the XGMII driver drives IDLE on all lanes, and sending works.", "quantifier": "every signal width", "why_tests_cant": "Universal over widths (the driver has no test).", "anchors": ["src/cocotb_bus/drivers/xgmii.py:XGMII.__init__", "src/cocotb_bus/drivers/xgmii.py:_XGMIIBus.value"]}
{"id": "C71", "title": "XGMII monitor error handling", "statement": "For every word sequence: frames with a non-terminate control character inside, frames of fewer than 12 bytes and frames with a wrong preamble are dropped with an error logged and never reported, and the monitor is ready for the next frame; frames with a good preamble are reported with the preamble and last four bytes removed; a wrong CRC is logged as an error.", "quantifier": "every word sequence", "why_tests_cant": "Unbounded traces.", "anchors": ["src/cocotb_bus/monitors/xgmii.py:XGMII._monitor_recv", "src/cocotb_bus/monitors/xgmii.py:XGMII._add_payload"]}
{"id": "C72", "title": "OPB time-out", "statement": "OPBMaster.read/write raise OPBException exactly when 16 consecutive cycles pass without xferAck and without toutSup.", "quantifier": "every xferAck/toutSup schedule", "why_tests_cant": "All slave timings.", "anchors": ["src/cocotb_bus/drivers/opb.py:OPBMaster.read", "src/cocotb_bus/drivers/opb.py:OPBMaster.write"]}
{"id": "C73", "title": "OPB transfers complete", "statement": "If the slave acknowledges in time, OPBMaster.read returns the data bus value of the acknowledged cycle, write completes, select is deasserted and the lock is released.", "quantifier": "every schedule with an acknowledgement", "why_tests_cant": "All slave timings.", "anchors": ["src/cocotb_bus/drivers/opb.py:OPBMaster.read", "src/cocotb_bus/drivers/opb.py:OPBMaster.write"]}
{"id": "C74", "title": "An OPB time-out leaves the master usable", "statement": "After OPBException the bus is released (select=0) and a following read or write can proceed.", "quantifier": "every schedule", "why_tests_cant": "Crash-point property.", "anchors": ["src/cocotb_bus/drivers/opb.py:OPBMaster.read", "src/cocotb_bus/drivers/opb.py:OPBMaster.write"]}
{"id": "C75", "title": "Signal names do not disable the bus operations", "statement": "For every bus whose signals are bound, drive, capture and sample remain usable whatever the signals are called.", "quantifier": "every set of signal and attribute names", "why_tests_cant": "All names.", "anchors": ["src/cocotb_bus/bus.py:Bus"]}
{"id": "C76", "title": "A value that cannot be converted puts nothing on an Avalon-ST bus", "statement": "If the value given to the Avalon-ST driver does not fit the data signal, the send raises and valid is not left asserted.", "quantifier": "every unconvertible value and every bus state", "why_tests_cant": "All values and states.", "anchors": ["src/cocotb_bus/drivers/avalon.py:AvalonST._driver_send"]}
{"id": "C77", "title": "Packet driver works on every bus width it accepts", "statement": "For every data bus width accepted by the constructors, sending a packet completes once the sink has accepted enough beats, and the packet comes back from a monitor unchanged.", "quantifier": "every bus width, packet and schedule", "why_tests_cant": "All widths and schedules; non-termination cannot be observed by a test.", "anchors": ["src/cocotb_bus/drivers/avalon.py:AvalonSTPkts._send_string", "src/cocotb_bus/drivers/avalon.py:AvalonSTPkts.__init__"]}
{"id": "C78", "title": "Packet interface configuration is checked on construction", "statement": "The packet driver and monitor constructors accept exactly the configurations allowed by the interface: an empty signal where there is more than one symbol, a channel signal of at most 128 bits that can express maxChannel, and a channel signal if channels are to be reported; driver violations raise AttributeError.", "quantifier": "every configuration and signal width", "why_tests_cant": "All widths and configurations.", "anchors": ["src/cocotb_bus/drivers/avalon.py:AvalonSTPkts.__init__", "src/cocotb_bus/monitors/avalon.py:AvalonSTPkts.__init__"]}
{"id": "C79", "title": "An Avalon-MM master remains usable after a failed operation", "statement": "If AvalonMaster.read or write raises (for instance because the address or value does not fit the signal), a later read or write on the same master can still proceed.", "quantifier": "every operation, argument and schedule", "why_tests_cant": "Crash-point property.", "anchors": ["src/cocotb_bus/drivers/avalon.py:AvalonMaster.read", "src/cocotb_bus/drivers/avalon.py:AvalonMaster.write"]}
{"id": "C80", "title": "An Avalon-MM read may follow a read at once", "statement": "When read() has returned, the caller may immediately issue another read, with sync=True or sync=False.", "quantifier": "every schedule and address", "why_tests_cant": "All schedules.", "anchors": ["src/cocotb_bus/drivers/avalon.py:AvalonMaster.read"]}
{"id": "C81", "title": "AvalonMemory serves every burst read it accepts", "statement": "Every burst read requested in a cycle in which waitrequest is 0 at the clock edge (after the one being served was accepted) is answered with its words.", "quantifier": "every schedule of burst read requests", "why_tests_cant": "All schedules of overlapping requests.", "anchors": ["src/cocotb_bus/drivers/avalon.py:AvalonMemory._respond"]}
{"id": "C82", "title": "An OPB write presents its data to the peripheral", "statement": "During an OPBMaster.write the value is on DBus_in, the data input of the peripheral, in every cycle of the request; DBus_out, the peripheral's data output that read samples, is left to the peripheral.", "quantifier": "every address, value and schedule", "why_tests_cant": "Universal over values and schedules.", "anchors": ["src/cocotb_bus/drivers/opb.py:OPBMaster.write", "src/cocotb_bus/drivers/opb.py:OPBMaster.read"]}
{"id": "C83", "title": "A loop-back test reports exactly the transmission errors", "statement": "A test that sends packets with the packet driver (waiting any number of clock cycles and changing the valid pattern between them) over a bus observed by the packet monitor, and compares the monitor with a list of expected packets through a Scoreboard, fails if and only if the expected packets differ from the packets sent, for every behaviour of the sink.", "quantifier": "every list of packets, waits, patterns, schedule of ready, expected list and setting of fail_immediately", "why_tests_cant": "End-to-end over unbounded sequences and schedules.", "anchors": ["src/cocotb_bus/drivers/avalon.py:AvalonSTPkts._driver_send", "src/cocotb_bus/monitors/avalon.py:AvalonSTPkts._monitor_recv", "src/cocotb_bus/scoreboard.py:Scoreboard.compare", "src/cocotb_bus/scoreboard.py:Scoreboard.result"]}
{"id": "C84", "title": "Avalon master and memory on one bus behave as a memory", "statement": "When an AvalonMaster and an AvalonMemory are connected by a bus with readdatavalid, every read returns the value last written to that address by the master, or else the initial contents of the memory (all X if there are none); no operation raises, and the operations complete, each within a number of clock edges given by the largest latency.", "quantifier": "every sequence of reads, writes and pauses, every memory contents, latency range and sequence of random numbers", "why_tests_cant": "End-to-end over unbounded sequences of operations and all random latencies.", "anchors": ["src/cocotb_bus/drivers/avalon.py:AvalonMaster.read", "src/cocotb_bus/drivers/avalon.py:AvalonMaster.write", "src/cocotb_bus/drivers/avalon.py:AvalonMemory._respond", "src/cocotb_bus/drivers/avalon.py:AvalonMemory._do_response"]}
{"id": "C85", "title": "Avalon master and memory agree on the read latency without readdatavalid", "statement": "When an AvalonMaster and an AvalonMemory with its default parameters are connected by a bus without readdatavalid, every read returns the value last written to that address.", "quantifier": "every sequence of reads, writes and pauses", "why_tests_cant": "Two drivers written separately must agree for all sequences.", "anchors": ["src/cocotb_bus/drivers/avalon.py:AvalonMaster.read", "src/cocotb_bus/drivers/avalon.py:AvalonMemory._pad"]}
{"id": "C86", "title": "A cancelled Avalon-ST send does not repeat data", "statement": "If a driver is killed, or the task awaiting its send is cancelled, at any moment, then the words (beats) transferred up to any later time are a prefix of what was sent: nothing is transferred twice and nothing else appears.", "quantifier": "all Avalon-ST configurations, uses of the driver, cancellation times, schedules of ready and valid, and lengths of the time after it", "why_tests_cant": "the cancellation can fall into any cycle of any schedule", "anchors": ["src/cocotb_bus/drivers/__init__.py:Driver.kill", "src/cocotb_bus/drivers/avalon.py:AvalonST._driver_send", "src/cocotb_bus/drivers/avalon.py:AvalonSTPkts._send_string"]}
{"id": "C87", "title": "A master can be used again after a call was given up", "statement": "If a read or write of an Avalon-MM or OPB master is cancelled (for instance by with_timeout), later reads and writes of the same master still work.", "quantifier": "all calls, cancellation times, later calls, slaves", "why_tests_cant": "the cancellation can fall into any wait of the call, and what goes wrong shows only in a later call", "anchors": ["src/cocotb_bus/drivers/avalon.py:AvalonMaster.read", "src/cocotb_bus/drivers/avalon.py:AvalonMaster.write", "src/cocotb_bus/drivers/opb.py:OPBMaster.read", "src/cocotb_bus/drivers/opb.py:OPBMaster.write", "src/cocotb_bus/drivers/__init__.py:Driver._acquire_lock"]}
{"id": "C88", "title": "An AXI4-Lite read returns the word of its own address even after another read was given up", "statement": "On a slave that answers in order, a read returns the word of its address whatever happened before, in particular if an earlier read was cancelled.", "quantifier": "all addresses, cancellation times, histories and slaves that answer in order", "why_tests_cant": "needs every combination of cancellation time and response latency", "anchors": ["src/cocotb_bus/drivers/amba.py:AXI4Master.read", "src/cocotb_bus/drivers/amba.py:AXI4LiteMaster.read"]}
{"id": "C89", "title": "combine_results.py loses and duplicates nothing", "statement": "The combined file has one test suite for every name and package that occurs in the result files, containing everything that the suites of that name and package contain, in the order read; every test case is there as often as in the files; the totals printed are the numbers of different suites and of test cases.", "quantifier": "every list of result files without test suites inside test suites", "why_tests_cant": "All files, suites, names and orders.", "anchors": ["bin/combine_results.py:main"]}
{"id": "C90", "title": "combine_results.py exits with 1 exactly if a test failed", "statement": "The exit status is 1 if some test case in one of the files has a failure and --suppress_rc was not given, and 0 otherwise.", "quantifier": "every list of result files without test suites inside test suites", "why_tests_cant": "All files.", "anchors": ["bin/combine_results.py:main"]}
{"id": "C91", "title": "Construction leaves a bus idle", "statement": "After a driver or memory model has been constructed nothing is requested or offered on its bus: valids, read, write, chip select and OPB select are 0, an AXI master accepts responses and has its unsupported attributes at 0, an AXI slave is ready for addresses, locks are free; signals that do not belong to this are not touched, and a bus without a signal that is needed for it is reported by an exception.", "quantifier": "every bus, every set of optional signals, every value of the signals before", "why_tests_cant": "All buses and optional signals.", "anchors": ["src/cocotb_bus/drivers/amba.py:AXI4Master.__init__", "src/cocotb_bus/drivers/amba.py:AXI4Slave.__init__", "src/cocotb_bus/drivers/avalon.py:AvalonMaster.__init__", "src/cocotb_bus/drivers/avalon.py:AvalonMemory.__init__", "src/cocotb_bus/drivers/avalon.py:AvalonST.__init__", "src/cocotb_bus/drivers/avalon.py:AvalonSTPkts.__init__", "src/cocotb_bus/drivers/opb.py:OPBMaster.__init__"]}
{"id": "C92", "title": "BitDriver.stop() freezes the signal", "statement": "After stop() the signal driven by a BitDriver does not change until the next start(); a start() with a generator then produces the waveform of that generator from its beginning, one without continues with the pairs not used yet.", "quantifier": "every sequence of start, stop and clock edges, every generator", "why_tests_cant": "All histories of calls and edges.", "anchors": ["src/cocotb_bus/drivers/__init__.py:BitDriver.start", "src/cocotb_bus/drivers/__init__.py:BitDriver.stop", "src/cocotb_bus/drivers/__init__.py:BitDriver._cr_twiddler"]}
{"id": "C93", "title": "Waiting for a signal ends in the first cycle in which it has the value", "statement": "The wait helpers for authors of drivers, for a signal to be 1 or 0, return in the first cycle not before the call in which the signal has that value, after which signals may be driven again; they raise ValueError if the signal is neither 0 nor 1 at the call, and drive nothing themselves.", "quantifier": "every behaviour of the signal, every state of the bus", "why_tests_cant": "All behaviours of the signal.", "anchors": ["src/cocotb_bus/drivers/__init__.py:BusDriver._wait_for_signal", "src/cocotb_bus/drivers/__init__.py:BusDriver._wait_for_nsignal"]}
{"id": "C94", "title": "Keyword arguments of append() and send() reach the driver", "statement": "Every keyword argument given to append() or send() that the driver's send routine takes is passed to it unchanged; others are reported.", "quantifier": "every driver, every set of keyword arguments", "why_tests_cant": "All sets of keyword arguments.", "anchors": ["src/cocotb_bus/drivers/__init__.py:Driver.append", "src/cocotb_bus/drivers/__init__.py:Driver.send", "src/cocotb_bus/drivers/__init__.py:Driver._send", "src/cocotb_bus/drivers/__init__.py:Driver._send_thread"]}
{"id": "C95", "title": "The same bits and bytes under cocotb 1.x and 2.x", "statement": "Creating a value for a signal from bytes, a bit string or a number, converting a value read from a signal to bytes, and selecting bits of it give the same result whether the package runs under cocotb 1.x or 2.x.", "quantifier": "every byte string, bit string, number, width, byte order and pair of indices", "why_tests_cant": "All values; two environments that cannot be installed together.", "anchors": ["src/cocotb_bus/_compat.py:create_binary", "src/cocotb_bus/_compat.py:convert_binary_to_bytes", "src/cocotb_bus/_compat.py:binary_slice"]}
{"id": "C96", "title": "An Avalon-ST loopback test passes exactly if the expected words are the sent ones", "statement": "If byte strings as wide as the bus are sent with an AvalonST driver and a scoreboard watches the same bus through an AvalonST monitor, both with their default configuration, then once the sends have returned the test passes if and only if the expected list is the list of byte strings sent.", "quantifier": "every bus width in bytes, every list of words, pauses, valid generators and schedule of ready, fail_immediately or not", "why_tests_cant": "All schedules and all sequences of words.", "anchors": ["src/cocotb_bus/drivers/avalon.py:AvalonST", "src/cocotb_bus/monitors/avalon.py:AvalonST", "src/cocotb_bus/scoreboard.py:Scoreboard.add_interface"]}
{"id": "C97", "title": "A monitor whose construction fails reports nothing", "statement": "If constructing a packet monitor raises, its callback is never called, whatever happens on the bus afterwards.", "quantifier": "every configuration that is rejected, everything that happens on the bus", "why_tests_cant": "All rejected configurations and all later traffic.", "anchors": ["src/cocotb_bus/monitors/avalon.py:AvalonSTPkts.__init__", "src/cocotb_bus/monitors/__init__.py:Monitor.__init__"]}
{"id": "C98", "title": "Every callable can be a callback", "statement": "Any callable can be given to add_callback(), as callback of a monitor or as compare_fn of Scoreboard.add_interface(), and is then called with every transaction.", "quantifier": "every callable, every monitor, every sequence of transactions", "why_tests_cant": "All callables and histories.", "anchors": ["src/cocotb_bus/monitors/__init__.py:Monitor.add_callback", "src/cocotb_bus/scoreboard.py:Scoreboard.add_interface"]}
{"id": "C99", "title": "Everything appended is sent, in order and without delay", "statement": "With a running simulation, every transaction given to append() of an Avalon-ST driver is driven onto the bus exactly once, in the order of the append() calls, whenever append() is called; a word waiting in the queue at one clock edge and next in line is on offer at the following edge; once nothing more is appended, all words or packets are transferred as soon as the sink has been able to take as many words as there are, plus the idle cycles asked for by the valid generator; the sending coroutine never ends. So a loopback test that appends packets passes exactly if the expected list is the list of packets appended.", "quantifier": "every schedule of append() calls over cycles and phases of a cycle, every list of words or packets, every schedule of ready, every valid generator (for promptness: none), every length of the simulation", "why_tests_cant": "append() may be called at any moment relative to the clock and to the sending coroutine, which is idle, sending, stalled or just between two words at that moment; a test tries a few moments.", "anchors": ["src/cocotb_bus/drivers/__init__.py:Driver.append", "src/cocotb_bus/drivers/__init__.py:Driver._send_thread", "src/cocotb_bus/drivers/avalon.py:AvalonST._driver_send", "src/cocotb_bus/drivers/avalon.py:AvalonSTPkts._driver_send"]}
{"id": "C100", "title": "An AXI4 memory seen through the master is an array of bytes", "statement": "Any sequence of legal write() and read() calls of an AXI4Master or AXI4LiteMaster (any mix of INCR, FIXED and WRAP bursts, sizes, byte enables, latencies, unaligned addresses and pauses) on a bus with a memory slave behaves like reads and writes of an array of bytes: no call raises, every read returns what the writes before it stored there, and the memory ends up with what the writes stored and with nothing outstanding. If the slave does everything within a fixed number of clock edges, every call returns, within a number of edges that can be computed beforehand.", "quantifier": "every sequence of legal calls, every initial content of the memory, every schedule of the slave's ready signals, responses and data beats", "why_tests_cant": "The calls of a test interact through the state they leave on the channels and in the slave; mixes of bursts, sizes and latencies and the slave's schedules cannot be enumerated.", "anchors": ["src/cocotb_bus/drivers/amba.py:AXI4Master.write", "src/cocotb_bus/drivers/amba.py:AXI4Master.read", "src/cocotb_bus/drivers/amba.py:AXI4LiteMaster"]}
{"id": "C101", "title": "Expected output computed while the test runs", "statement": "When the expected output of a scoreboard is produced during the test (by the test itself, or by a reference model that is the callback of a monitor on the input, as in the endian swapper and flip-flop examples), the verdict is success exactly if the transactions at the output are the ones the model computes from the transactions at the input, in order; the order in which monitors run in the same time step does not matter.", "quantifier": "every number of in-order interfaces, every model function, every initial content of the expected lists, every interleaving of transactions at inputs and outputs, every set of values", "why_tests_cant": "Which monitor runs first at a clock edge and how far the device lags behind are up to simulator, device and stimulus; the interleavings are unbounded.", "anchors": ["src/cocotb_bus/scoreboard.py:Scoreboard.add_interface", "src/cocotb_bus/scoreboard.py:Scoreboard.result", "src/cocotb_bus/monitors/__init__.py:Monitor._recv", "examples/dff/tests/dff_cocotb.py:DFF_TB", "examples/endian_swapper/tests/test_endian_swapper.py:EndianSwapperTB"]}
{"id": "C102", "title": "An AXI4 master is usable after error responses", "statement": "A slave may answer any request with an error (for a read, in any beat). If a test catches the protocol errors raised by the write() and read() calls of an AXI4Master or AXI4LiteMaster and goes on, each call returns or raises according to the responses to that call alone (the first code that is not OKAY, all beats of a refused read being consumed), every later call still does what it should, and nothing else is raised: reads return what the writes that were not refused have stored. If the slave does everything within a fixed number of clock edges, every call ends, refused or not.", "quantifier": "every sequence of legal calls, every choice of response codes for every request and beat, every initial content of the memory, every schedule of the slave", "why_tests_cant": "An error in the middle of a burst must not leave a beat, a handshake or a lock behind that a later call would trip over; which call fails, at which beat, and what follows cannot be enumerated.", "anchors": ["src/cocotb_bus/drivers/amba.py:AXI4Master.write", "src/cocotb_bus/drivers/amba.py:AXI4Master.read", "src/cocotb_bus/drivers/amba.py:AXI4LiteMaster", "src/cocotb_bus/drivers/amba.py:AXIProtocolError"]}
{"id": "C103", "title": "Reads and writes of an AXI4 master at the same time", "statement": "write() and read() of one AXI4Master or AXI4LiteMaster may be called by two tasks at the same time, on a bus with a memory. Nothing is raised. The writes are carried out in the order of the calls, each as a whole at one moment between its call and its return. Each beat of a read returns the bytes stored at one moment between the call of read() and its return, in the order of the beats; so a read of bytes that no write changes meanwhile returns what the writes that have returned before have stored, and tasks that use different bytes do not notice each other. If the memory does everything within a fixed number of clock edges, both tasks get through, in no more edges than the slower one would need alone.", "quantifier": "every sequence of legal writes and waits of one task, every sequence of legal reads and waits of the other, every initial content of the memory, every schedule of the memory (which may accept, answer and delay each channel as it likes)", "why_tests_cant": "The two tasks and the five channels of the bus can be interleaved in unboundedly many ways; which bytes a read in progress may return depends on the exact moment a concurrent write takes effect.", "anchors": ["src/cocotb_bus/drivers/amba.py:AXI4Master.write", "src/cocotb_bus/drivers/amba.py:AXI4Master.read", "src/cocotb_bus/drivers/amba.py:AXI4LiteMaster", "src/cocotb_bus/drivers/amba.py:AXI4Master.__init__"]}
{"id": "C104", "title": "A reordering window on expected output that grows while the test runs", "statement": "Any number of interfaces, each with its own reorder_depth d (a negative one means 0) and an expected list that the test, or a reference model on another monitor, extends during the test: the verdict is success exactly if on every interface each received transaction can be paired with one of the first d+1 values that are in the list at that time and not paired yet, and no value is left at the end. So a successful test received, in any order within the window, exactly the values expected, none of them before it was expected; and raising a reorder_depth never makes a successful test fail.", "quantifier": "every number of interfaces, every depth, every initial content of the expected lists, every interleaving of received transactions and additions to the lists, every set of values, both settings of fail_immediately", "why_tests_cant": "The scoreboard takes the first match it finds; that this is never a wrong choice, whatever is received or added later, needs an exchange argument over unbounded histories.", "anchors": ["src/cocotb_bus/scoreboard.py:Scoreboard.add_interface", "src/cocotb_bus/scoreboard.py:Scoreboard.compare", "src/cocotb_bus/scoreboard.py:Scoreboard.result", "src/cocotb_bus/monitors/__init__.py:Monitor._recv"]}
{"id": "C105", "title": "A transfer that returns leaves the bus idle", "statement": "When a call that performs a transfer returns, the signals say that no transfer is offered: valid is 0 after an Avalon-ST word, an Avalon-ST packet or a packet given as words, with data, startofpacket, endofpacket, empty and channel unknown after a packet and nothing but valid changed after words; read or write (and chip select and the byte enables) is 0 after an Avalon-MM access, and the master can be used again; AWVALID and WVALID are 0 after an AXI write and ARVALID after an AXI read, also when the call raised because of an error response; select is 0 after an OPB access and the master can be used again.", "quantifier": "all arguments of the calls, all signal widths and optional signals, all states of the bus before the call, all schedules of the other side", "why_tests_cant": "The state of the signals afterwards depends on how the transfer ended: with or without waiting, after an error response, on every configuration of optional signals; a test looks at one of them.", "anchors": ["src/cocotb_bus/drivers/avalon.py:AvalonST._driver_send", "src/cocotb_bus/drivers/avalon.py:AvalonSTPkts._send_string", "src/cocotb_bus/drivers/avalon.py:AvalonSTPkts._send_iterable", "src/cocotb_bus/drivers/avalon.py:AvalonMaster.read", "src/cocotb_bus/drivers/avalon.py:AvalonMaster.write", "src/cocotb_bus/drivers/amba.py:AXI4Master.write", "src/cocotb_bus/drivers/amba.py:AXI4Master.read", "src/cocotb_bus/drivers/amba.py:AXI4LiteMaster", "src/cocotb_bus/drivers/opb.py:OPBMaster"]}
{"id": "C106", "title": "Any number of tasks share an AXI master on a memory with several outstanding requests", "statement": "Any number of tasks call write and read of one AXI4 or AXI4-Lite master at any moments, also while earlier calls are waiting, and the memory accepts new requests before it has answered earlier ones (answers come in the order of the requests). Then every call behaves as if it took effect between its call and its return: each write happens at one moment, in the order of the calls; each beat of a read looks at the memory at one moment, in the order of the beats and of the reads; a call gets the response the memory gave to it, never that of another call, and raises AXIProtocolError exactly if that is an error, in which case a write has no effect. A call returns as soon as it has been answered, and every call returns within a bounded number of clock edges if the memory does everything that is due within some number of edges.", "quantifier": "all sequences of legal calls and the moments they are made at, all latencies and alignments of the channels, all initial contents of the memory, all response codes, all schedules of the memory, AXI4 and AXI4-Lite", "why_tests_cant": "How many requests are outstanding, which task holds which of the five locks and when each channel makes progress can be interleaved in unboundedly many ways; a mix-up of answers shows only in some of them.", "anchors": ["src/cocotb_bus/drivers/amba.py:AXI4Master.write", "src/cocotb_bus/drivers/amba.py:AXI4Master.read", "src/cocotb_bus/drivers/amba.py:AXI4Master._send_write_address", "src/cocotb_bus/drivers/amba.py:AXI4Master._send_write_data", "src/cocotb_bus/drivers/amba.py:AXI4LiteMaster", "src/cocotb_bus/drivers/amba.py:AXI4Master.__init__"]}
{"id": "C107", "title": "Several tasks share an Avalon-MM master on a memory", "statement": "Tasks of a test call read() and write() of one AvalonMaster on a bus with a memory, each task one call after the other with or without pauses. The calls behave as if they had been made one after the other: no call raises, each task's calls take effect in its order, and every read returns, to the task that made it, the value last written to its address by any task. All calls return within the number of clock edges they and the pauses would take one after the other.", "quantifier": "every number of tasks, every sequence of legal calls and pauses of each, every order in which tasks that are due are resumed, every initial content and latency of the memory", "why_tests_cant": "Which task gets the lock depends on where each of them is when it is released and on the order in which they are resumed; the interleavings are unbounded.", "anchors": ["src/cocotb_bus/drivers/avalon.py:AvalonMaster.read", "src/cocotb_bus/drivers/avalon.py:AvalonMaster.write", "src/cocotb_bus/drivers/__init__.py:Driver._acquire_lock", "src/cocotb_bus/drivers/__init__.py:Driver._release_lock", "src/cocotb_bus/drivers/avalon.py:AvalonMemory"]}
{"id": "C108", "title": "What is offered on a bus stays as it is until it is taken", "statement": "Whenever a driver offers something to the other side and it is not taken in that clock cycle, the driver offers exactly the same in the next cycle: AXI addresses and write data with VALID, Avalon-MM requests while waitrequest is high, Avalon-ST words and packets while ready is low, OPB requests until they are acknowledged. This is so for whatever the driver is asked to do and by whom: also across calls, for arguments that make a call raise, and for calls of several tasks.", "quantifier": "all sequences of calls, transactions and appended items with all arguments, all moments of calls, all signal widths and optional signals, all schedules of the other side of the bus", "why_tests_cant": "An offer that is withdrawn or changed is seen only if the other side happens to wait in that very cycle; how long it waits, and what the driver is asked to do meanwhile, is unbounded.", "anchors": ["src/cocotb_bus/drivers/amba.py:AXI4Master.write", "src/cocotb_bus/drivers/amba.py:AXI4Master.read", "src/cocotb_bus/drivers/avalon.py:AvalonMaster.read", "src/cocotb_bus/drivers/avalon.py:AvalonMaster.write", "src/cocotb_bus/drivers/avalon.py:AvalonST._driver_send", "src/cocotb_bus/drivers/avalon.py:AvalonSTPkts._send_string", "src/cocotb_bus/drivers/avalon.py:AvalonSTPkts._send_iterable", "src/cocotb_bus/drivers/opb.py:OPBMaster", "src/cocotb_bus/drivers/__init__.py:Driver._send_thread"]}
{"id": "C109", "title": "XGMII frames damaged on the way are noticed", "statement": "Packets are sent through the XGMII driver and arrive at an XGMII monitor with data bytes changed on the way. For every frame that is changed in at most 32 consecutive bits (in the order of transmission), or in any two bits of a frame shorter than 512 MiB, the monitor logs an error (wrong preamble or wrong CRC), whatever the packets, their neighbours and the layout of the bus; frames that are not changed are reported as sent and without an error, and no frame is lost or invented. Longer damage may go unnoticed.", "quantifier": "every packet sequence, every lane count and layout, every moment of sending, every change of data bytes on every frame", "why_tests_cant": "The damage that must be noticed is any of the patterns of up to 32 bits at any position in frames of any length; whether the check sum finds all of them depends on the polynomial, the bit order and the byte order being right together, which a round trip through the same wrong function does not show.", "anchors": ["src/cocotb_bus/drivers/xgmii.py:XGMII.layer1", "src/cocotb_bus/drivers/xgmii.py:XGMII._driver_send", "src/cocotb_bus/monitors/xgmii.py:XGMII._monitor_recv"]}
{"id": "C110", "title": "A callback of a transaction may use the driver", "statement": "A callback given to append runs after its transaction was sent and may itself call append and clear on the same driver, any number of times. What it appends is queued behind what is queued already and is sent in that order; none of it is forgotten, and it is sent although the queue was empty when the callback ran. A transaction appended by a callback to an empty queue follows at once and without synchronising. A clear in a callback drops what was queued before it and nothing appended after it. Events and callbacks of all transactions come once each, in order and with nothing in between.", "quantifier": "every history of append, clear, kill, sends that complete or raise, with callbacks that make any calls and return or raise", "why_tests_cant": "Which calls a callback makes, and what is queued when it makes them, is unbounded; an append that sets the event while the coroutine does not wait for it is the case in which a wakeup is lost.", "anchors": ["src/cocotb_bus/drivers/__init__.py:Driver.append", "src/cocotb_bus/drivers/__init__.py:Driver.clear", "src/cocotb_bus/drivers/__init__.py:Driver._send", "src/cocotb_bus/drivers/__init__.py:Driver._send_thread"]}
{"id": "C111", "title": "A callback of a monitor may register callbacks", "statement": "A callback of a monitor may call add_callback on the monitor. The handling of the transaction ends, and every callback registered by then, before or meanwhile, is called exactly once per registration for this transaction, in the order of registration; the transaction is not queued as well. If a callback raises, those after it are not called, and neither the event nor wait_for_recv report the transaction.", "quantifier": "every list of callbacks, every behaviour of callbacks depending on all calls so far, every transaction", "why_tests_cant": "Which callbacks register what, and when, is unbounded; the list changes while it is iterated over.", "anchors": ["src/cocotb_bus/monitors/__init__.py:Monitor.add_callback", "src/cocotb_bus/monitors/__init__.py:Monitor._recv"]}
{"id": "C112", "title": "A transaction is sent as it was when it was appended", "statement": "Whatever a program does with an object after it gave it to append, the driver sends the contents the object had at the time of the call, in the order of the calls.", "quantifier": "every history of changes of objects, calls of append, clear, kill, and sends that look at their transaction at any moment, complete or raise", "why_tests_cant": "The moments at which objects are changed relative to the queue are unbounded; tests append fresh objects.", "anchors": ["src/cocotb_bus/drivers/__init__.py:Driver.append", "src/cocotb_bus/drivers/__init__.py:Driver._send_thread", "src/cocotb_bus/drivers/xgmii.py:XGMII._driver_send", "src/cocotb_bus/drivers/avalon.py:AvalonST._driver_send"]}
{"id": "C113", "title": "Every consumer of a monitor sees the transaction that was received", "statement": "All callbacks of a monitor, its event and everybody in wait_for_recv get a transaction with the contents it had when it was received, whatever the other callbacks do with it.", "quantifier": "every list of callbacks, every behaviour of callbacks depending on all calls so far, every transaction", "why_tests_cant": "What callbacks do with what they are given, and the order in which they are registered, is up to the user.", "anchors": ["src/cocotb_bus/monitors/__init__.py:Monitor._recv", "src/cocotb_bus/monitors/avalon.py:AvalonSTPkts._monitor_recv"]}
{"id": "C114", "title": "Write and read bursts keep AvalonMemory coherent", "statement": "A master performs any sequence of write and read bursts on an AvalonMemory with burstcount, as Avalon-MM allows: a beat counts when write is 1 and waitrequest is 0 at a clock edge, between beats the master may pause, and a burst may follow another one at once. Every word returned by a read burst consists of the bytes last written to its addresses before the request (initially those given to the constructor), words come in the order of the requests and no others come, every beat is stored and nothing else is.", "quantifier": "every sequence of write and read bursts, every address, length and data, every initial memory, every pause between bursts", "why_tests_cant": "What a burst returns depends on the whole history of bursts, and whether a beat is stored depends on the cycles between it and its neighbours; both are unbounded.", "anchors": ["src/cocotb_bus/drivers/avalon.py:AvalonMemory._respond", "src/cocotb_bus/drivers/avalon.py:AvalonMemory._waitrequest", "src/cocotb_bus/drivers/avalon.py:AvalonMemory._writing_byte_value", "src/cocotb_bus/drivers/avalon.py:AvalonMemory._do_response"]}
{"id": "C115", "title": "The configured ready latency of packetized Avalon-ST", "statement": "With readyLatency L in the configuration of an AvalonSTPkts driver, a sink of ready latency L (it takes at an edge what is offered if it was ready L edges before) takes exactly the beats of the packets sent, and the driver offers a beat only in such a ready cycle; with L in the configuration of the monitor, exactly the packets taken so are reported.", "quantifier": "every latency, every list of packets, every idle generator, every schedule of ready, every trace", "why_tests_cant": "The option matters only for schedules in which ready changes while packets are under way; no test sets it.", "anchors": ["src/cocotb_bus/drivers/avalon.py:AvalonSTPkts._default_config", "src/cocotb_bus/drivers/avalon.py:AvalonSTPkts._wait_ready", "src/cocotb_bus/monitors/avalon.py:AvalonSTPkts._default_config", "src/cocotb_bus/monitors/avalon.py:AvalonSTPkts._monitor_recv"]}
{"id": "C116", "title": "Names identify drivers and monitors", "statement": "Two drivers made for different buses or different elements of an array of buses have different names (name attribute and str()), and so do two monitors; and what they log goes to loggers with different names.", "quantifier": "every collection of drivers or monitors, every name (or none) and every array index given to their constructors", "why_tests_cant": "The names that a testbench uses are unlimited; tests make one or two drivers.", "anchors": ["src/cocotb_bus/drivers/__init__.py:BusDriver.__init__", "src/cocotb_bus/drivers/__init__.py:BusDriver.__str__", "src/cocotb_bus/monitors/__init__.py:BusMonitor.__init__", "src/cocotb_bus/monitors/__init__.py:BusMonitor.__str__"]}
{"id": "C117", "title": "Changing the configuration of a running packet monitor", "statement": "When the byte order (or the greatest channel, or the timeout) in the config of a running AvalonSTPkts monitor is changed, every beat is read as the configuration at its own edge says: packets whose beats are laid out accordingly are reported unchanged, whenever and however often the configuration changes, also in the middle of a packet, and only the words handled under the opposite byte order have their bytes reversed.", "quantifier": "every sequence of packets, every trace of beats, idle and in-reset edges, every history of the configuration", "why_tests_cant": "The monitor keeps a partial packet across the change; which words come before and which after it depends on the schedule.", "anchors": ["src/cocotb_bus/monitors/avalon.py:AvalonSTPkts._monitor_recv", "examples/endian_swapper/tests/test_endian_swapper.py:stream_out_config_setter"]}
{"id": "C118", "title": "The endian swapper test always passes on the endian swapper", "statement": "The example testbench (packet driver, a coroutine that sets the byte order of the output monitor, a monitor on each stream, a scoreboard) run on the example device: every packet sent is reported by the output monitor unchanged, in order and once; the monitor never raises; the device's packet counter equals the number of packets (modulo 2^32); and once all packets are sent and one more edge had ready, the verdict of the scoreboard is success and the control bus is free for reading the counter. While the run goes on the output is never ahead of the input and at most one completed packet is still inside.", "quantifier": "all lists of non-empty packets, with or without sync (the first with sync, or with startofpacket not 1 before); all valid generators; all backpressure schedules; all sequences of write requests to the control register at any edge; all initial values of the data registers and of the monitor's byte order; either order of the two monitors at every edge; every point at which the run stops", "why_tests_cant": "the byte order is switched at times that the testbench does not control relative to packets, backpressure and gaps; a test run sees one interleaving of all of these", "anchors": ["examples/endian_swapper/tests/test_endian_swapper.py:stream_out_config_setter", "examples/endian_swapper/tests/test_endian_swapper.py:EndianSwapperTB", "examples/endian_swapper/hdl/endian_swapper.sv", "src/cocotb_bus/drivers/avalon.py:AvalonSTPkts", "src/cocotb_bus/monitors/avalon.py:AvalonSTPkts", "src/cocotb_bus/scoreboard.py:Scoreboard"]}
{"id": "C119", "title": "Tests that use an AXI4-Lite master on the AXI4-Lite slave example see two registers", "statement": "On the example device (two 32-bit registers at addresses 0 and 4 behind an AXI4-Lite slave), whatever calls of write and read a test makes one after the other with an AXI4LiteMaster: each returns or raises within a bounded number of clock edges; a read of a register returns the value written to it last (modulo 2^32; before any write, the value it had); an access above address 4 raises AXIProtocolError with DECERR and changes nothing; and the registers contain the values written last, at the end of the calls and as long as no other call is made. A write that follows another one at once must use sync, the default, or a data latency.", "quantifier": "all sequences of calls and pauses, all values, byte enables, latencies and sync flags; addresses 0, 4 and all those above; all initial values of the registers; both phases in which a test may start; all numbers of edges after the last call", "why_tests_cant": "what the device answers depends on what the master did at the edges before, and the other way round; a test run sees one sequence", "anchors": ["examples/axi_lite_slave/tests/test_axi_lite_slave.py", "examples/axi_lite_slave/hdl/axi_lite_slave.v", "examples/axi_lite_slave/hdl/axi_lite_demo.v", "src/cocotb_bus/drivers/amba.py:AXI4LiteMaster", "src/cocotb_bus/drivers/amba.py:AXI4Master"]}
{"id": "C120", "title": "The flip-flop test passes on the flip-flop, whatever is driven into it and however long", "statement": "A testbench made of a BitDriver on the input of a D flip-flop, monitors on its input and its output that report the value at each rising clock edge, a model that appends each input to the expected list until stop() is called, and a Scoreboard whose expected list starts with the initial value of the output, ends with success, if one more clock edge follows stop().", "quantifier": "all generators of (on, off) counts, all values of the signal before the start, all initial values of the output, all numbers of clock edges, all orders in which the two monitors run at each edge, fail_immediately on or off", "why_tests_cant": "the example runs 100 edges with one random generator, and with one order of the monitors; whether an input or an output is one too many or too late depends on the order in every cycle", "anchors": ["examples/dff/tests/dff_cocotb.py: DFF_TB, BitMonitor, run_test", "examples/dff/hdl/dff.v: dff", "src/cocotb_bus/drivers/__init__.py: BitDriver", "src/cocotb_bus/scoreboard.py: Scoreboard"]}
{"id": "C121", "title": "The tests of the mean example pass for all numbers", "statement": "For a bus of 2^k numbers of w bits, the device of the mean example outputs the mean, rounded down, one clock edge after the numbers, without overflow and within w bits; and a test that appends the means to the expected list of a Scoreboard when it drives the numbers, with a BusMonitor on the output, ends with success, if one clock edge follows the last numbers.", "quantifier": "all widths w, all k, all numbers below 2^w, all contents of the device before, all sequences of lots of numbers with or without gaps, all numbers of edges in reset", "why_tests_cant": "the example has ten lots of four random six-bit numbers; overflow depends on all bits of all numbers", "anchors": ["examples/mean/tests/test_mean.py: StreamBusMonitor, value_test, mean_randomised_test", "examples/mean/hdl/mean.sv: mean", "src/cocotb_bus/monitors/__init__.py: BusMonitor", "src/cocotb_bus/scoreboard.py: Scoreboard"]}
{"id": "C122", "title": "An AXI write given up by its caller is still carried out as a whole and holds nobody up", "statement": "If a call of write of an AXI4Master or AXI4LiteMaster is cancelled (for instance by with_timeout), its address and data are still sent as if the caller had waited: a memory carries out the write as a whole, in the order of the calls and after it was called, and reads see it accordingly. Calls that are not given up return when the memory has given them a response, so on a memory that does everything within N edges they return within a bounded time.", "quantifier": "all calls of write and read, at any moments and from any number of tasks; all sets of calls of write given up and all moments at which they are; all memories that take several requests before they answer; all response codes", "why_tests_cant": "the address and data tasks outlive the caller; where they are when it is cancelled depends on the schedule", "anchors": ["src/cocotb_bus/drivers/amba.py:AXI4Master.write", "src/cocotb_bus/drivers/amba.py:AXI4Master._send_write_address", "src/cocotb_bus/drivers/amba.py:AXI4Master._send_write_data", "src/cocotb_bus/drivers/amba.py:AXI4LiteMaster.write"]}
{"id": "C123", "title": "The outcome of an AXI write is the response to that write, also if an earlier one was given up", "statement": "A call of write returns if the response to its own write is OKAY and raises AXIProtocolError with the response code otherwise, also if calls made before were cancelled.", "quantifier": "all calls of write and read, at any moments and from any number of tasks; all sets of calls of write given up and all moments at which they are; all memories that answer in order; all response codes", "why_tests_cant": "whether a late response meets another waiting call depends on the schedule; tests rarely give up calls", "anchors": ["src/cocotb_bus/drivers/amba.py:AXI4Master.write", "src/cocotb_bus/drivers/amba.py:AXI4LiteMaster.write"]}
{"id": "C124", "title": "An AXI read given up by its caller is asked for at most once", "statement": "If a call of read of an AXI4Master is cancelled, the slave accepts its address at most once, and no other address, until the next call.", "quantifier": "all legal reads, all moments of the cancellation, all schedules of ARREADY, all numbers of clock edges afterwards", "why_tests_cant": "depends on where the handshake is when the call is cancelled and on ARREADY afterwards", "anchors": ["src/cocotb_bus/drivers/amba.py:AXI4Master.read"]}
{"id": "C125", "title": "The streaming test never fails on good data", "statement": "In the test of the Avalon-ST driver and monitor against a queue, with words that are not sent at consecutive clock edges: the scoreboard never records an error; the monitor reports the words in the order in which they were sent and no others; the verdict at the end is success exactly if no word is left in the queue or unreported, and that is so if the source of the queue has been let go on often enough during the final wait. If the source is let go on at least once in every so many clock edges and the final wait is long enough for that, the test comes to its end with success after a number of clock edges that depends on the words, the gaps and that number only.", "quantifier": "all sequences of bytes, all waits between them, all back pressure on the source, all gaps of the driver, all orders of test and monitor at an edge, all initial contents of the queue", "why_tests_cant": "depends on how back pressure, the fill level of the queue and the handshake of the driver interleave", "anchors": ["tests/test_cases/test_avalon_stream/test_avalon_stream.py:test_avalon_stream", "tests/designs/avalon_streaming_module/avalon_streaming.sv", "src/cocotb_bus/drivers/avalon.py:AvalonST", "src/cocotb_bus/monitors/avalon.py:AvalonST", "src/cocotb_bus/scoreboard.py:Scoreboard"]}
{"id": "C126", "title": "An Avalon master on a memory in hardware reads what it wrote", "statement": "On a slave that keeps words, answers a read at the next clock edge and never takes back readdatavalid, the reads of an AvalonMaster return the value last written to their address (or the initial one); no call raises; every call returns within two clock edges. So the memory-mapped test passes for any values that fit.", "quantifier": "all sequences of writes, reads and pauses within the memory, all values, all sizes of the memory and of the bus, with and without readdatavalid, waitrequest, byteenable and chipselect, all initial contents", "why_tests_cant": "the test writes and reads ten small numbers once, each at its own address; a stale readdatavalid shows only in reads after the first one", "anchors": ["tests/test_cases/test_avalon_interface/test_avalon_interface.py:AvlMMRead", "tests/designs/avalon_interface_module/mm_reader.sv", "src/cocotb_bus/drivers/avalon.py:AvalonMaster.read", "src/cocotb_bus/drivers/avalon.py:AvalonMaster.write"]}
{"id": "C127", "title": "The AXI4 tests pass on every good memory", "statement": "Whatever the AXI4 tests draw within their ranges and whatever is in the memory: single words with byte enables and latencies, INCR bursts with byte enables (one fewer than there are values), FIXED and WRAP bursts, narrow writes read in full width, aligned writes read from an unaligned address and the other way round all read back the values that the tests compute; no call raises. A slave that refuses everything makes calls raise its error. The operations listed as illegal, and bursts across a 4 kB boundary, raise ValueError at once and drive nothing.", "quantifier": "all addresses, values, byte enables, lengths, beat sizes and data buses within the ranges, all memory contents, all latencies of the memory, AXI4 and AXI4-Lite", "why_tests_cant": "each test draws once per run, on one memory with one latency; errors for certain strobes, shifts or lengths show up only when drawn", "anchors": ["tests/test_cases/test_axi4/test_axi4.py:test_single_beat", "tests/test_cases/test_axi4/test_axi4.py:test_incr_burst", "tests/test_cases/test_axi4/test_axi4.py:test_fixed_wrap_burst", "tests/test_cases/test_axi4/test_axi4.py:test_narrow_burst", "tests/test_cases/test_axi4/test_axi4.py:test_unaligned", "tests/test_cases/test_axi4/test_axi4.py:test_unmapped", "tests/test_cases/test_axi4/test_axi4.py:test_illegal_operations", "tests/test_cases/test_axi4/test_axi4.py:test_4kB_boundary", "src/cocotb_bus/drivers/amba.py:AXI4Master.write", "src/cocotb_bus/drivers/amba.py:AXI4Master.read"]}
{"id": "C128", "title": "The length of a master is the number of its addresses", "statement": "len(master) of an Avalon or AXI master is 2 to the power of the number of address bits, and a master is true in a condition, however wide the address is. The addresses below len(master) are those that a read or write can use: of any other address no call returns, and a call without sync raises OverflowError at once; of one of these no call raises OverflowError.", "quantifier": "all address widths, all addresses, all values that fit, all simulations", "why_tests_cant": "a test has a bus of one width; that a bus of 63 or more address bits makes len() and a condition raise, and that the bound is exact, shows only over all widths and addresses", "anchors": ["src/cocotb_bus/drivers/avalon.py:AvalonMaster.__len__", "src/cocotb_bus/drivers/amba.py:AXI4Master.__len__", "src/cocotb_bus/drivers/avalon.py:AvalonMaster.read", "src/cocotb_bus/drivers/avalon.py:AvalonMaster.write", "src/cocotb_bus/drivers/amba.py:AXI4Master.read"]}
{"id": "C129", "title": "A killed monitor keeps what it has received and receives nothing more", "statement": "After kill() a monitor receives nothing more, whatever happens on the bus: the statistics, the queue, the event and the effects of its callbacks stay as they were, also if callbacks are added or kill() is called again. What it has received by then are exactly the transactions that were complete on the bus before, in order: the first ones of those it would have received otherwise. A transaction that is incomplete at that moment is not reported. A call of wait_for_recv that is waiting or is made later returns None when its timeout has passed, and never if it has none; a call whose transaction had already come returns that transaction.", "quantifier": "all monitors that look at the bus at clock edges (in particular those of the package), all traces, all moments of kill(), all histories of add_callback, wait_for_recv, timeouts and kill() before and after", "why_tests_cant": "the kill can fall into any cycle of any transaction, and tasks may be at any point of wait_for_recv then", "anchors": ["src/cocotb_bus/monitors/__init__.py:Monitor.kill", "src/cocotb_bus/monitors/__init__.py:Monitor._recv", "src/cocotb_bus/monitors/__init__.py:Monitor.wait_for_recv", "src/cocotb_bus/monitors/__init__.py:Monitor.add_callback"]}
{"id": "C130", "title": "A call of an AXI master that raises does not affect other calls", "statement": "If a call of read or write of an AXI4Master or AXI4LiteMaster raises, because its arguments are not legal, because its address does not fit or because the slave refuses it, and the test catches the exception and goes on, then everything else is as if the call had not been made: the other calls return or raise what they would have returned or raised, within the same time, and the memory ends up with the same contents.", "quantifier": "all sequences of calls with any arguments, all contents of the memory, all its schedules and responses", "why_tests_cant": "what a call leaves behind shows only in what later calls do, and depends on the slave's schedule", "anchors": ["src/cocotb_bus/drivers/amba.py:AXI4Master.write", "src/cocotb_bus/drivers/amba.py:AXI4Master.read", "src/cocotb_bus/drivers/amba.py:AXI4LiteMaster"]}
{"id": "C131", "title": "A killed driver sends nothing more from its queue", "statement": "After kill() of a driver, no queued or later appended transaction is begun, no event is set and no callback called. Every transaction appended before or after was either sent, with its caller told, or was being sent (at most one, its caller is not told), or stays in the queue, in this order; and blocking send() calls go on as if the driver had not been killed.", "quantifier": "every history of append, clear, send, kill and scheduling before and after the kill", "why_tests_cant": "When kill() comes relative to the sending coroutine is up to the test; a test tries a few moments.", "anchors": ["src/cocotb_bus/drivers/__init__.py:Driver.kill", "src/cocotb_bus/drivers/__init__.py:Driver._send_thread", "src/cocotb_bus/drivers/__init__.py:Driver.append", "src/cocotb_bus/drivers/__init__.py:Driver.send"]}
