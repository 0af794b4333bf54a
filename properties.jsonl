{"id": "C01", "title": "Fifo keeps order and loses nothing", "statement": "For a Fifo of any DEPTH>=1 without INIT_DATA, whatever sequence of dataIn.en/dataIn.data/dataOut.en is applied, as long as dataIn.en is never 1 while dataIn.wait=1 and dataOut.en is never 1 while dataOut.wait=1, the words delivered on dataOut.data (the cycle after each dataOut.en) are exactly the words written, in the same order, each once.", "quantifier": "every DEPTH>=1, every data type, every power-up memory content, every finite protocol-respecting input history", "why_tests_cant": "Order corruption happens only at particular pointer wrap-around/loop-flag phases; histories are unbounded and DEPTH is a parameter.", "anchors": ["hwtLib/mem/fifo.py: Fifo.fifo_pointers, Fifo.hwImpl"]}
{"id": "C02", "title": "Fifo wait flags are exact", "statement": "In every reachable state of a Fifo driven within the protocol, dataIn.wait=1 iff exactly DEPTH words are stored (written minus read) and dataOut.wait=1 iff no word is stored; consequently the fifo really offers DEPTH slots and never over- or under-flows.", "quantifier": "every DEPTH>=1, every protocol-respecting history, every cycle of it", "why_tests_cant": "A wrong flag shows only for particular combinations of pointer positions and simultaneous read/write at the wrap.", "anchors": ["hwtLib/mem/fifo.py: Fifo.fifo_pointers"]}
{"id": "C03", "title": "Fifo size/space counters are exact", "statement": "With EXPORT_SIZE/EXPORT_SPACE, after every protocol-respecting history size equals the number of words stored and space equals DEPTH minus that number; neither counter register ever wraps its bit width.", "quantifier": "every DEPTH>=1 and every history", "why_tests_cant": "Counter drift accumulates over unbounded histories; a test sees only some interleavings.", "anchors": ["hwtLib/mem/fifo.py: Fifo.hwImpl (size_reg, space_reg)", "hwtLib/mem/fifo.py: Fifo._declr_size_and_space"]}
{"id": "C04", "title": "Fifo INIT_DATA is delivered first and not overwritten", "statement": "A Fifo constructed with any INIT_DATA of length <= DEPTH delivers INIT_DATA in order before any word written after reset, with the same order/no-loss guarantee as C01.", "quantifier": "every DEPTH, every INIT_DATA with len<=DEPTH, every protocol-respecting history", "why_tests_cant": "Tests use one INIT_DATA length; the boundary length DEPTH behaves differently from all shorter ones.", "anchors": ["hwtLib/mem/fifo.py: Fifo.fifo_pointers (write_ptr and looped reset values)"]}
{"id": "C05", "title": "HandshakedFifo is a queue of capacity DEPTH", "statement": "For every valid/ready schedule on both sides of a HandshakedFifo (no INIT_DATA), the words transferred on dataOut are a prefix of the words transferred on dataIn, and at most DEPTH words are inside at any time; no protocol assumption on the environment is needed.", "quantifier": "every DEPTH>=2, every input history (any vld, rd, data per cycle)", "why_tests_cant": "The inner FIFO plus the output register create many stall interleavings; schedules are unbounded.", "anchors": ["hwtLib/handshaked/fifo.py: HandshakedFifo._connect_fifo_in, _connect_fifo_out", "hwtLib/mem/fifo.py: Fifo"]}
{"id": "C06", "title": "HandshakedFifo output obeys valid/ready stability", "statement": "Once dataOut.vld=1 with dataOut.rd=0, in the next cycle dataOut.vld is still 1 and dataOut.data is unchanged.", "quantifier": "every reachable state and every input of HandshakedFifo", "why_tests_cant": "Needs every stall point; a violation would appear only when the stall coincides with an internal refill.", "anchors": ["hwtLib/handshaked/fifo.py: HandshakedFifo._connect_fifo_out"]}
{"id": "C07", "title": "HandshakedFifo makes progress", "statement": "A HandshakedFifo refuses input (dataIn.rd=0) only when at least DEPTH-1 words are inside, and whenever at least one word is inside dataOut.vld is 1 in the current or the next cycle; hence a word accepted when k words are inside is delivered after the consumer has been ready k+2 times in a row.", "quantifier": "every DEPTH>=2, every reachable state", "why_tests_cant": "Absence of deadlock is a statement over all states and infinite schedules.", "anchors": ["hwtLib/handshaked/fifo.py: HandshakedFifo", "hwtLib/mem/fifo.py: Fifo.fifo_pointers"]}
{"id": "C08", "title": "HandshakedFifo size and space", "statement": "HandshakedFifo.size equals the number of words accepted minus the number delivered and space equals DEPTH minus that number, in every cycle.", "quantifier": "every DEPTH>=2, every schedule", "why_tests_cant": "Counters split between inner fifo and output register; errors need specific interleavings.", "anchors": ["hwtLib/handshaked/fifo.py: HandshakedFifo._connect_size_and_space"]}
{"id": "C09", "title": "HandshakedReg pipeline is a lossless in-order buffer", "statement": "A HandshakedReg with integer LATENCY=n>=1, DELAY=0 delivers exactly the accepted words in order, holds at most n of them, keeps vld/data stable under stall, and when empty with a ready consumer a word accepted in cycle t is offered in cycle t+n.", "quantifier": "every n, every vld/rd schedule", "why_tests_cant": "n-stage stall patterns are exponential and unbounded in time.", "anchors": ["hwtLib/handshaked/reg.py: HandshakedReg._impl_latency, hwImpl"]}
{"id": "C10", "title": "HandshakedReg LATENCY=(1,2) breaks the ready chain without losing data", "statement": "With LATENCY=(1,2) dataIn.rd and dataOut.vld/data do not depend combinationally on dataOut.rd or dataIn.vld, and the component is a lossless in-order buffer holding at most two words with stable output; it sustains one word per cycle.", "quantifier": "every schedule of vld/rd", "why_tests_cant": "The two registers swap roles depending on history; a wrong reader_prio reorders words only after a specific stall pattern.", "anchors": ["hwtLib/handshaked/reg.py: HandshakedReg._implReadyChainBreak"]}
{"id": "C11", "title": "HandshakedReg LATENCY=2 DELAY=1", "statement": "With LATENCY=2, DELAY=1 the register pair is a lossless in-order buffer of at most two words whose dataIn-side stage hands a word over only when the output stage is empty.", "quantifier": "every schedule of vld/rd", "why_tests_cant": "Same as C09: unbounded schedules.", "anchors": ["hwtLib/handshaked/reg.py: HandshakedReg._implLatencyAndDelay"]}
{"id": "C12", "title": "HandshakedReg INIT_DATA appears exactly once after reset", "statement": "For any LATENCY=n (DELAY=0) and INIT_DATA of length m<=n, the words delivered after reset are INIT_DATA items followed by the accepted words; no undefined word is ever delivered.", "quantifier": "every n, every m<=n, every schedule", "why_tests_cant": "Tests use n=m=1; the flag that marks stages as initialised leaks to later stages when m<n.", "anchors": ["hwtLib/handshaked/reg.py: HandshakedReg.hwImpl (hasInit, INIT_DATA)"]}
{"id": "C13", "title": "StreamNode synchronises atomically", "statement": "For a StreamNode with any number of masters and slaves and no extraConds, driven by sync(), in each cycle either every non-skipped interface performs a transfer or none does, all of them exactly when ack() is 1, and skipped interfaces perform none.", "quantifier": "every number of masters/slaves, every skipWhen assignment, every valuation of valid/ready/skip and enSig", "why_tests_cant": "2^(2n) valuations for unbounded n.", "anchors": ["hwtLib/handshaked/streamNode.py: StreamNode.sync, ack, ackForMaster, ackForSlave, vld, rd"]}
{"id": "C14", "title": "StreamNode extraConds block every interface", "statement": "As documented, an extraCond which is 0 on one (non skipped) interface causes blocking on all interfaces: no interface of the node transfers while any extraCond of a non-skipped interface is 0.", "quantifier": "every node configuration and valuation", "why_tests_cant": "Depends on combination of several interfaces' conditions, unbounded arity.", "anchors": ["hwtLib/handshaked/streamNode.py: StreamNode (class doc :ivar extraConds), ackForMaster, ackForSlave"]}
{"id": "C15", "title": "HsSplitCopy delivers every word to every output", "statement": "HsSplitCopy with N outputs transfers in all outputs and the input or in none; therefore over any schedule every output receives exactly the sequence of words accepted from the input.", "quantifier": "every N>=1, every schedule", "why_tests_cant": "Unbounded N and schedules.", "anchors": ["hwtLib/handshaked/splitCopy.py: HsSplitCopy.hwImpl"]}
{"id": "C16", "title": "HsJoinPrioritized forwards exactly the lowest-index valid input", "statement": "In each cycle with dataOut transfer exactly one input transfers, it is the valid input of lowest index, and dataOut carries its data; no input transfers otherwise.", "quantifier": "every INPUTS, every valuation", "why_tests_cant": "Unbounded arity.", "anchors": ["hwtLib/handshaked/joinPrioritized.py: HsJoinPrioritized.hwImpl"]}
{"id": "C17", "title": "HsJoinFairShare forwards exactly one input and reports it", "statement": "In each cycle of HsJoinFairShare in which dataOut transfers, exactly one input transfers, dataOut carries its data and selectedOneHot is the one-hot code of that input; the priority register is one-hot forever.", "quantifier": "every INPUTS, every schedule", "why_tests_cant": "Unbounded arity and the priority register depends on elapsed time.", "anchors": ["hwtLib/handshaked/joinFair.py: HsJoinFairShare.isSelectedLogic, priorityAck, inputMuxLogic"]}
{"id": "C18", "title": "HsJoinFairShare never starves an input", "statement": "An input that keeps its vld asserted is eventually served whenever the consumer is ready infinitely often.", "quantifier": "every INPUTS, every infinite schedule with fair consumer", "why_tests_cant": "Starvation is a liveness property of infinite schedules.", "anchors": ["hwtLib/handshaked/joinFair.py: HsJoinFairShare.isSelectedLogic (priority rotates every clock)"]}
{"id": "C19", "title": "HsSplitFair sends each word to exactly one output", "statement": "In every cycle in which the input of HsSplitFair transfers exactly one output transfers, and no output transfers otherwise.", "quantifier": "every OUTPUTS, every schedule, EXPORT_SELECTED on or off", "why_tests_cant": "Unbounded arity, time-dependent priority.", "anchors": ["hwtLib/handshaked/splitFair.py: HsSplitFair.isSelectedLogic, hwImpl"]}
{"id": "C20", "title": "HsSplitFair selectedOneHot names the output used", "statement": "Whenever selectedOneHot transfers, selectedOneHot.data is one-hot and its set bit is the output which transfers in the same cycle.", "quantifier": "every OUTPUTS, every schedule", "why_tests_cant": "Wrong only when the prioritised output is not ready while another one is.", "anchors": ["hwtLib/handshaked/splitFair.py: HsSplitFair.isSelectedLogic (selectedOneHot.data)"]}
{"id": "C21", "title": "HsSplitPrioritized uses the lowest-index ready output", "statement": "In every cycle in which dataIn transfers exactly one output transfers: the ready output of lowest index; otherwise none.", "quantifier": "every OUTPUTS, every valuation", "why_tests_cant": "Unbounded arity.", "anchors": ["hwtLib/handshaked/splitPrioritized.py: HsSplitPrioritized.hwImpl"]}
{"id": "C22", "title": "HsSplitSelect routes the k-th word by the k-th selection", "statement": "With one-hot words on selectOneHot, the k-th word accepted on dataIn is delivered on exactly the output named by the k-th accepted selection word, for every stall schedule of the data, select and output channels.", "quantifier": "every OUTPUTS>=2, every schedule, every list of one-hot selections", "why_tests_cant": "Pairing of two independent streams under arbitrary stalls.", "anchors": ["hwtLib/handshaked/splitSelect.py: HsSplitSelect.hwImpl"]}
{"id": "C23", "title": "HsResizer downscale serialises each word completely", "statement": "With scale (n,1) each accepted wide word appears as its n parts, least significant part first, contiguous, none lost or repeated, for every stall schedule.", "quantifier": "every n>=2, every schedule", "why_tests_cant": "Unbounded schedules times n phases.", "anchors": ["hwtLib/handshaked/resizer.py: HsResizer._downscale"]}
{"id": "C24", "title": "HsResizer upscale packs each n words exactly once", "statement": "With scale (1,n) the j-th output word is the concatenation of accepted input words j*n..j*n+n-1, for every stall schedule.", "quantifier": "every n>=2, every schedule", "why_tests_cant": "Failure needs the consumer to stall exactly in the last phase.", "anchors": ["hwtLib/handshaked/resizer.py: HsResizer._upscale, _upscaleDataPassLogic"]}
{"id": "C25", "title": "HandshakedStoredBurst sends DATA in order", "statement": "HandshakedStoredBurst delivers exactly the items of DATA in order (once, or cyclically with REPEAT) for every consumer schedule, with vld/data stable while stalled.", "quantifier": "every non-empty DATA, REPEAT on/off, every ready schedule", "why_tests_cant": "Unbounded schedule.", "anchors": ["hwtLib/handshaked/storedBurst.py: HandshakedStoredBurst.hwImpl"]}
{"id": "C26", "title": "RamAsAddrDataRdVld answers reads in order", "statement": "For every schedule of read addresses, writes and consumer stalls, the k-th word delivered on r.data is the content of the RAM at the k-th accepted read address at the time of acceptance; no answer is lost, duplicated or reordered, and accepted writes are performed.", "quantifier": "every schedule, every RAM content", "why_tests_cant": "RAM has one cycle latency and cannot be stalled; loss needs a stall at the exact cycle of the RAM answer.", "anchors": ["hwtLib/handshaked/ramAsAddrDataRdVld.py: RamAsAddrDataRdVld.read_logic, hwImpl"]}
{"id": "C27", "title": "FifoDrop delivers exactly the committed words", "statement": "Driven within the protocol (en only without wait, commit/discard only with en), FifoDrop delivers exactly the words of committed chunks in order; a discarded chunk is never delivered and frees its space.", "quantifier": "every DEPTH, every protocol-respecting history of writes, commits, discards and reads", "why_tests_cant": "Failures need discard to coincide with a read at pointer wrap-around.", "anchors": ["hwtLib/mem/fifoDrop.py: FifoDrop.hwImpl"]}
{"id": "C28", "title": "FifoDrop space counter", "statement": "With EXPORT_SPACE FifoDrop.space equals DEPTH minus the number of words occupying the memory.", "quantifier": "every history", "why_tests_cant": "Drift over histories.", "anchors": ["hwtLib/mem/fifoDrop.py: FifoDrop.hwImpl (space_reg)"]}
{"id": "C29", "title": "FifoCopy replays exactly the last frame", "statement": "With frame ends signalled on dataOut_copy_frame, FifoCopy delivers each frame once plus one additional identical time for every copy request, keeps all other words in order, and never overwrites a frame that may still be replayed.", "quantifier": "every DEPTH, every schedule of writes, reads and copy requests obeying the documented use", "why_tests_cant": "Replay may coincide with writes at wrap-around.", "anchors": ["hwtLib/mem/fifoCopy.py: FifoCopy.hwImpl"]}
{"id": "C30", "title": "FifoAsync is lossless for every interleaving of its two clocks", "statement": "For every DEPTH=2^k>=2 and every interleaving of edges of dataIn_clk and dataOut_clk, the words delivered are the words written in order, each once; wait flags are conservative: no write is accepted with DEPTH words stored, no read is accepted with none.", "quantifier": "every AW>=1, every sequence of write-clock and read-clock edges in any order, every en schedule", "why_tests_cant": "Two unrelated clocks: the interleavings are uncountable for tests, and synchroniser lag makes flags stale.", "anchors": ["hwtLib/mem/fifoAsync.py: FifoAsync.hwImpl, _addr_reg_and_cdc", "hwtLib/logic/cntrGray.py: binToGray", "hwtLib/clocking/cdc.py: SignalCdcBuilder"]}
{"id": "C31", "title": "FifoArray lists are independent FIFOs", "statement": "A FifoArray holds independent linked lists: an insert with append=0 starts a new list and leaves every other list unchanged, an insert with append=1 at the tail of a list extends just that list, a pop at the head of a list returns its first item and removes only it; insert.addr_ret is always a free slot when insert.rd=1.", "quantifier": "every ITEMS, every sequence of inserts/pops addressed correctly", "why_tests_cant": "Corruption of another list needs an append=0 insert whose ignored addr happens to hit a non-tail node.", "anchors": ["hwtLib/mem/fifoArray.py: FifoArray.hwImpl"]}
{"id": "C32", "title": "RamSingleClock byte-enable writes", "statement": "A read of an address of RamSingleClock with HAS_BE returns for each byte the byte of the last write to this address which had the corresponding we bit set (or initial content).", "quantifier": "every width, address, every history of single port accesses", "why_tests_cant": "Histories are unbounded, masks are 2^bytes.", "anchors": ["hwtLib/mem/ram.py: RamSingleClock.mem_write, connect_port"]}
{"id": "C33", "title": "Splitting a RAM into blocks is invisible", "statement": "RamSingleClock with MAX_BLOCK_DATA_WIDTH smaller than DATA_WIDTH is observably equal to the unsplit RAM for every history.", "quantifier": "every DATA_WIDTH, MAX_BLOCK_DATA_WIDTH, every history", "why_tests_cant": "Index arithmetic for the last partial block, all widths.", "anchors": ["hwtLib/mem/ram.py: RamSingleClock.delegate_to_children, _declr_children"]}
{"id": "C34", "title": "RamXorSingleClock behaves as a multi-write-port RAM", "statement": "A read returns the value written last (by any port) to the address.", "quantifier": "every history of writes on all write ports and reads", "why_tests_cant": "Hazards between consecutive cycles on different ports.", "anchors": ["hwtLib/mem/ramXor.py: RamXorSingleClock.hwImpl"]}
{"id": "C35", "title": "Cam reports exactly the matching records", "statement": "Bit i of Cam.out equals 1 iff the last write to address i stored the searched key with valid flag 1 (never written cells do not match); a lookup is answered in the same cycle and exactly once.", "quantifier": "every ITEMS, KEY_WIDTH, every history of writes and lookups", "why_tests_cant": "Unbounded history, key space.", "anchors": ["hwtLib/mem/cam.py: Cam.writeHandler, matchHandler"]}
{"id": "C36", "title": "Cam can address all items", "statement": "Every one of the ITEMS cells can be written through the write interface (the address port is wide enough).", "quantifier": "every ITEMS>=2", "why_tests_cant": "Fails only for ITEMS=2^k+1.", "anchors": ["hwtLib/mem/cam.py: Cam.hwDeclr (ADDR_WIDTH)"]}
{"id": "C37", "title": "FlipRegister/FlipCntr never mix the two sides", "statement": "At any time writes through first and second touch different registers, a side reads back what was last written to the register it is currently connected to; in FlipCntr no increment is lost or counted twice: the sum of counts over both registers equals the increments minus what was overwritten by the reader side.", "quantifier": "every history of increments, flips and data writes", "why_tests_cant": "Interleavings of flip with increment.", "anchors": ["hwtLib/mem/atomic/flipReg.py: FlipRegister.hwImpl", "hwtLib/mem/atomic/flipCntr.py: FlipCntr"]}
{"id": "C38", "title": "CrcComb xor matrix equals bit-serial CRC", "statement": "For every polynomial, data width, initial state and data the parallel CRC xor matrix yields the state of the bit-serial CRC shift register after feeding the data bits MSB first.", "quantifier": "every POLY, POLY_WIDTH, DATA_WIDTH, INIT, data", "why_tests_cant": "2^(width) data values and all polynomials.", "anchors": ["hwtLib/logic/crcComb.py: CrcComb.buildCrcXorMatrix, applyCrcXorMatrix"]}
{"id": "C39", "title": "CRC over several words equals CRC over their concatenation", "statement": "Running the parallel CRC word after word gives the same state as one computation over the concatenated data, and the state is linear in data and state (so error patterns are detected independently of the data).", "quantifier": "every list of words, any widths", "why_tests_cant": "Unbounded message length.", "anchors": ["hwtLib/logic/crc.py: Crc.hwImpl, build_crc_xor_matrix"]}
{"id": "C40", "title": "Crc applies XOROUT", "statement": "The output of Crc is the (possibly bit-reflected) CRC state xored with XOROUT.", "quantifier": "every XOROUT, REFOUT", "why_tests_cant": "All standard configs have palindromic XOROUT.", "anchors": ["hwtLib/logic/crc.py: Crc.hwImpl (fin_bits)"]}
{"id": "C41", "title": "Gray code changes exactly one bit per step and is injective", "statement": "binToGray of v and v+1 (mod 2^n) differ in exactly one bit and different values have different codes; hence GrayCntr changes one output bit per enabled cycle, none otherwise, and visits all 2^n codes with period 2^n.", "quantifier": "every width n>=1, every value", "why_tests_cant": "All widths.", "anchors": ["hwtLib/logic/cntrGray.py: binToGray, GrayCntr.hwImpl"]}
{"id": "C42", "title": "BinToBcd converts every number", "statement": "Every accepted binary number is delivered as its decimal digits (each nibble 0..9, least significant digit in the low nibble), after exactly INPUT_WIDTH busy cycles, once per input.", "quantifier": "every INPUT_WIDTH>=1, every value, every handshake schedule", "why_tests_cant": "2^width values.", "anchors": ["hwtLib/logic/binToBcd.py: BinToBcd.hwImpl"]}
{"id": "C43", "title": "BcdToBin converts every valid BCD number", "statement": "Every accepted word with all nibbles <=9 is delivered as the binary number it denotes, once.", "quantifier": "every BCD_DIGITS, every valid BCD value, every handshake schedule", "why_tests_cant": "10^digits values.", "anchors": ["hwtLib/logic/bcdToBin.py: BcdToBin.hwImpl"]}
{"id": "C44", "title": "One-hot encoders and decoders are inverse", "statement": "oneHotToBin returns the index of the lowest set bit; binToOneHot sets exactly the addressed bit (none when en=0); oneHotToBin(binToOneHot(i))=i for each i.", "quantifier": "every width, every value", "why_tests_cant": "All widths.", "anchors": ["hwtLib/logic/oneHotToBin.py: oneHotToBin", "hwtLib/logic/binToOneHot.py: binToOneHot"]}
{"id": "C45", "title": "CountLeadingZeros/Ones count exactly", "statement": "The leading zero/one counter returns the length of the maximal prefix of zeros/ones (from MSB), including the value width for the all-zero/all-one word.", "quantifier": "every power of two width, every value", "why_tests_cant": "2^width values.", "anchors": ["hwtLib/logic/countLeading.py"]}
{"id": "C46", "title": "BitonicSorter sorts", "statement": "For every power of two number of inputs the outputs are a permutation of inputs in sorted order.", "quantifier": "every k, every input vector of 2^k items of a totally ordered type", "why_tests_cant": "n! input orders.", "anchors": ["hwtLib/logic/bitonicSorter.py"]}
{"id": "C47", "title": "Lfsr never leaves its orbit to zero", "statement": "If the feedback polynomial includes the top tap, the Lfsr step is a bijection on states, so the sequence is purely periodic and a non-zero seed never reaches the all-zero lock-up state.", "quantifier": "every width, every POLY with the top tap, every nonzero INIT, every time", "why_tests_cant": "Infinite time horizon.", "anchors": ["hwtLib/logic/lfsr.py: Lfsr.hwImpl"]}
{"id": "C48", "title": "Axi4S_en switches only at frame boundaries", "statement": "A frame that has started is finished even if en drops to 0; a new frame starts only when en=1.", "quantifier": "every schedule of en, valid, ready, last", "why_tests_cant": "Needs en to drop inside a frame at each possible point.", "anchors": ["hwtLib/amba/axis_comp/en.py: Axi4S_en.hwImpl"]}
{"id": "C49", "title": "Axi4S_resizer preserves the frame byte stream", "statement": "Up- and down-scaling keep the sequence of valid bytes of each frame and the frame boundaries.", "quantifier": "every ratio, every frame list, every stall schedule", "why_tests_cant": "Unbounded frames and stalls.", "anchors": ["hwtLib/amba/axis_comp/resizer.py: Axi4S_resizer.upscale, downscale"]}
{"id": "C50", "title": "BusStaticRemap hardware equals its reference translation", "statement": "The address produced by the hardware translation equals translate_addr_val for every address and every normalised memory map.", "quantifier": "every map accepted by _normalize_mem_map, every address", "why_tests_cant": "All maps x all addresses; special-cased aligned regions.", "anchors": ["hwtLib/abstract/busStaticRemap.py: BusStaticRemap.translate_addr_signal, translate_addr_val"]}
{"id": "C51", "title": "Bus interconnect address allocation is disjoint", "statement": "_normalize_slave_configs accepts a slave list only if all resulting regions are aligned to their power-of-two size and pairwise disjoint, and AUTO_ADDR regions never collide with the previously listed ones.", "quantifier": "every slave list", "why_tests_cant": "All lists.", "anchors": ["hwtLib/abstract/busInterconnect.py: BusInterconnectUtils._normalize_slave_configs"]}
{"id": "C52", "title": "Interconnect separable groups are the connected components", "statement": "_extract_separable_groups returns disjoint groups; each contains with a master all slaves it reaches and with a slave all masters which reach it; every master is in exactly one group; two ports are in one group only if connected.", "quantifier": "every master/slave relation", "why_tests_cant": "All bipartite graphs.", "anchors": ["hwtLib/abstract/busInterconnect.py: BusInterconnectUtils._extract_separable_group, _extract_separable_groups"]}
{"id": "C53", "title": "SimRam allocations never overlap", "statement": "Blocks returned by any sequence of SimRam malloc/calloc calls (cell multiple sizes, keepOut multiples) are disjoint and a later allocation never changes data of an earlier block.", "quantifier": "every sequence of malloc/calloc", "why_tests_cant": "Unbounded sequences.", "anchors": ["hwtLib/abstract/sim_ram.py: SimRam.malloc, SimRam.calloc"]}
{"id": "C54", "title": "SimRam.getBits reads exactly the selected bits", "statement": "getBits(start,end) returns the bits of the memory image in the range irrespective of how the range crosses cell boundaries.", "quantifier": "every cell size, every range, every memory content", "why_tests_cant": "All alignments and sizes.", "anchors": ["hwtLib/abstract/sim_ram.py: SimRam.getBits"]}
{"id": "C55", "title": "HandshakedFifo INIT_DATA comes out first", "statement": "A HandshakedFifo constructed with any INIT_DATA of length <= DEPTH delivers INIT_DATA in order and then the accepted words in order; nothing is lost or overwritten.", "quantifier": "all DEPTH>=2, all INIT_DATA with len<=DEPTH, all valid/ready schedules", "why_tests_cant": "the interaction of preset pointers, preset output register and later traffic depends on the length of INIT_DATA relative to DEPTH and on the schedule", "anchors": ["hwtLib/handshaked/fifo.py:HandshakedFifo.hwDeclr", "hwtLib/handshaked/fifo.py:HandshakedFifo._connect_fifo_out", "hwtLib/mem/fifo.py:Fifo.fifo_pointers"]}
{"id": "C56", "title": "Exclusive stream groups transfer together with the outer node", "statement": "When an ExclusiveStreamGroups is a master of a StreamNode and at most one of its conditions is 1 (no extraConds), an unselected child node performs no transfer and all connected interfaces of the selected child transfer exactly in the cycles in which the outer node's ack() is 1, i.e. together with every other connected interface of the outer node.", "quantifier": "any number of children, any nodes inside, all values of valid/ready/skip/condition/enable signals", "why_tests_cant": "number of interfaces and the signal combinations are unbounded", "anchors": ["hwtLib/handshaked/streamNode.py:ExclusiveStreamGroups.sync", "hwtLib/handshaked/streamNode.py:ExclusiveStreamGroups.ack", "hwtLib/handshaked/streamNode.py:StreamNode.sync"]}
{"id": "C57", "title": "FifoDrop commit and discard are qualified by en", "statement": "As documented for FifoWriterDropable (commit and discard behave as data signals, valid if en=1), a commit or discard value presented while dataIn.en=0 has no effect.", "quantifier": "every state and every input with en=0", "why_tests_cant": "Needs a glitching discard between writes, at every fill level.", "anchors": ["hwtLib/mem/fifoDrop.py: FifoWriterDropable, FifoDrop.hwImpl"]}
{"id": "C58", "title": "FifoDrop commit during wait", "statement": "As documented for FifoDrop (commit/drop logic is executed also during dataIn.wait=1), a commit while the memory is full never lets the reader obtain more words than were written.", "quantifier": "every DEPTH, every history", "why_tests_cant": "Needs the memory to be full of a mix of committed and uncommitted words.", "anchors": ["hwtLib/mem/fifoDrop.py: FifoDrop.hwImpl"]}
{"id": "C59", "title": "FifoCopy never delivers words which were not written", "statement": "A reader of FifoCopy respecting dataOut.wait obtains only words that were written before, also when it requests a replay.", "quantifier": "every DEPTH, every history respecting the wait signals", "why_tests_cant": "Replay requests of an empty frame at arbitrary time.", "anchors": ["hwtLib/mem/fifoCopy.py: FifoCopy.hwImpl (dout.wait, fifo_read)"]}
{"id": "C60", "title": "FifoAsync never stores more than DEPTH words", "statement": "Whatever the clocks, the number of words accepted by FifoAsync and not yet requested by the reader never exceeds DEPTH.", "quantifier": "every DEPTH allowed by the assertions (powers of two), every interleaving of the clocks", "why_tests_cant": "Fails only for the corner DEPTH=1; two free running clocks.", "anchors": ["hwtLib/mem/fifoAsync.py: FifoAsync.hwDeclr, FifoAsync.hwImpl"]}
{"id": "C61", "title": "FifoAsync makes progress", "statement": "A word accepted by FifoAsync is visible to the reader after at most three edges of the read clock, a freed cell to the writer after at most three edges of the write clock, whatever the interleaving and the resolution of samples taken during a change.", "quantifier": "every AW>=1, every interleaving of the clocks", "why_tests_cant": "Liveness over all interleavings.", "anchors": ["hwtLib/mem/fifoAsync.py: FifoAsync.hwImpl, _addr_reg_and_cdc", "hwtLib/clocking/cdc.py: SignalCdcBuilder.add_out_reg"]}
{"id": "C62", "title": "BcdToBin counter constant fits its register", "statement": "MAX_COUNT, which is the reset value of the bit counter, is representable in the log2ceil(MAX_COUNT) bits the counter has, so the component can be constructed for every BCD_DIGITS.", "quantifier": "every BCD_DIGITS>=1", "why_tests_cant": "Unit test uses one digit count; failing counts are sparse (1, 19, ...).", "anchors": ["hwtLib/logic/bcdToBin.py: BcdToBin.hwImpl"]}
{"id": "C63", "title": "CRC detects every short burst error", "statement": "Two messages of equal length which differ only inside a window of at most POLY_WIDTH bits never have the same CRC output (polynomial with the term 1).", "quantifier": "every such polynomial, every width, every message, every error pattern and position", "why_tests_cant": "Unbounded message length, all error patterns.", "anchors": ["hwtLib/logic/crcComb.py: CrcComb.buildCrcXorMatrix", "hwtLib/logic/crc.py: Crc.hwImpl"]}
{"id": "C64", "title": "Crc computes the CRC of each frame", "statement": "With MASK_GRANULARITY=8, in the cycle after the last word the output is the CRC of exactly the valid bytes of this frame in order, whatever idle cycles and partially valid words occur, and the next frame starts from INIT.", "quantifier": "every configuration with little endian input, every frame, every idle schedule", "why_tests_cant": "Unbounded frames x masks x idles.", "anchors": ["hwtLib/logic/crc.py: Crc.hwImpl"]}
{"id": "C65", "title": "Interconnect address width reaches every slave word", "statement": "The address width computed by BusInterconnect.getOptimalAddrSize is sufficient to express the byte address of every bus word of every slave.", "quantifier": "every accepted slave list, every data width", "why_tests_cant": "All slave lists and orders; a too narrow address silently aliases slaves.", "anchors": ["hwtLib/abstract/busInterconnect.py: BusInterconnect.getOptimalAddrSize"]}
{"id": "C66", "title": "SimRam arrays are read back", "statement": "Every item of an array allocated by calloc with init values is read back by getBits/getArray with the same value and all bits valid, for item size equal to the cell or dividing it.", "quantifier": "every cell size, item size, array and previous memory content", "why_tests_cant": "All sizes and contents.", "anchors": ["hwtLib/abstract/sim_ram.py: SimRam.calloc, reshapedInitItems, SimRam.getBits"]}
{"id": "C67", "title": "SimRam.malloc refuses what it cannot allocate", "statement": "malloc either refuses a request (size or keepOut not a multiple of the cell) or returns a block which does not overlap any other block.", "quantifier": "every sequence of malloc", "why_tests_cant": "Unbounded sequences and arbitrary sizes.", "anchors": ["hwtLib/abstract/sim_ram.py: SimRam.malloc"]}
{"id": "C68", "title": "Fifo ignores en asserted during wait", "statement": "A read or write request made while the wait flag is set has no effect on the outputs of Fifo.", "quantifier": "every input history, also protocol violating", "why_tests_cant": "All histories.", "anchors": ["hwtLib/mem/fifo.py: Fifo.fifo_reader, Fifo.fifo_writer, Fifo.hwImpl"]}
{"id": "C69", "title": "Shared timers keep their period", "statement": "For any list of positive periods given to ClkBuilder.timers (whatever counter sharing resolveSharing picks), the timer with period p ticks in an enabled cycle without reset exactly when that cycle is the p-th, 2p-th, ... enabled cycle since the last reset, and never in a disabled cycle; the tick does not depend on which other timers are requested together with it.", "quantifier": "all lists of positive periods, all histories of enable/reset, all positions in the list", "why_tests_cant": "Sharing depends on the divisibility graph of the whole list of periods; tests cover a few lists and a bounded number of cycles.", "anchors": ["hwtLib/clocking/timers.py:37-204", "hwtLib/clocking/clkBuilder.py:29-63"]}
{"id": "C70", "title": "No timer ticks while its reset is active", "statement": "While the rstSig passed to ClkBuilder.timers is active, no tick output is active, whichever timers share counters.", "quantifier": "all lists of periods greater than 1, all histories", "why_tests_cant": "Masking by reset is present only on some of the generated paths, which path is used depends on the other timers in the list.", "anchors": ["hwtLib/clocking/timers.py:100-109", "hwtLib/clocking/timers.py:151-155"]}
{"id": "C71", "title": "UartTx frames on the line", "statement": "A byte accepted by UartTx appears on txd as start bit 0, eight data bits from the least significant one and stop bit 1, each lasting FREQ/BAUD cycles; txd is high at all other times; dataIn.rd is low exactly while the frame is being sent.", "quantifier": "all bytes, all timings of the producer, all bit lengths, all cycles", "why_tests_cant": "Requires all cycles of unbounded streams and all phases of the bit timer.", "anchors": ["hwtLib/peripheral/uart/tx.py:37-72"]}
{"id": "C72", "title": "UartRx receives each frame exactly once", "statement": "For a line carrying well formed frames with OVERSAMPLING*S cycles per bit, UartRx signals each byte exactly once with the right value and nothing else, also when frames follow each other without pause.", "quantifier": "all sequences of frames, all OVERSAMPLING >= 8, all sampling periods", "why_tests_cant": "Drift accumulates over frames; a test with a few frames and pauses does not see it.", "anchors": ["hwtLib/peripheral/uart/rx.py:36-89", "hwtLib/clocking/clkBuilder.py:94-131"]}
{"id": "C73", "title": "UART loopback", "statement": "With a UartTx connected to a UartRx with the same parameters (FREQ >= BAUD*OVERSAMPLING), the received bytes are the bytes accepted by the transmitter, in order, without loss or duplicates.", "quantifier": "all byte streams and timings, all accepted FREQ/BAUD/OVERSAMPLING", "why_tests_cant": "Rounding of FREQ/BAUD/OVERSAMPLING matters only for some ratios and patterns of data.", "anchors": ["hwtLib/peripheral/uart/tx.py:37-72", "hwtLib/peripheral/uart/rx.py:36-89"]}
{"id": "C74", "title": "FifoCopy ignores requests made while wait is set", "statement": "dataIn.en asserted while dataIn.wait, or dataOut.en while dataOut.wait, has no effect on any later output of FifoCopy: every history behaves like the one with only the permitted requests.", "quantifier": "all depths, all histories including those which ignore wait, all data", "why_tests_cant": "Needs every reachable state with every combination of requests; the tests only use agents which obey wait.", "anchors": ["hwtLib/mem/fifoCopy.py:40-110"]}
{"id": "C75", "title": "HandshakedCdc transfers words exactly once and in order", "statement": "For any two clocks and any producer and consumer obeying the ready/valid protocol, the words taken on dataOut of HandshakedCdc are the words accepted on dataIn, in order, none lost, duplicated or invented; at most one is on the way.", "quantifier": "all interleavings of clock edges (including simultaneous edges with either sampled value), all data, all stalls of producer and consumer", "why_tests_cant": "The tests use two fixed clock ratios and a consumer which is always ready.", "anchors": ["hwtLib/handshaked/cdc.py:121-180", "hwtLib/clocking/cdc.py:150-179"]}
{"id": "C76", "title": "HandshakedCdc makes progress", "statement": "With a consumer which is always ready, a word accepted by HandshakedCdc is delivered after one further edge of the input clock followed by five edges of the output clock, and dataIn is ready again after three more edges of the input clock, whatever the ratio of the clocks.", "quantifier": "all interleavings of clock edges, all histories", "why_tests_cant": "Unbounded clock ratios and phases.", "anchors": ["hwtLib/handshaked/cdc.py:121-180"]}
{"id": "C77", "title": "Cdc output shows sampled inputs in order with bounded latency", "statement": "dataOut of Cdc is always a value dataIn had at an edge of the input clock (or INIT_VAL), values never appear out of order, a value appears after OUT_REG_CNT edges of the output clock and never after fewer.", "quantifier": "all OUT_REG_CNT >= 1, all interleavings of the clocks, all data", "why_tests_cant": "Clock phases and ratios are unbounded; tests use one.", "anchors": ["hwtLib/clocking/cdc.py:57-146"]}
{"id": "C78", "title": "CdcPulseGen gives one pulse per change", "statement": "dataOut_en of CdcPulseGen is never active more often than dataIn changed; if each sampled value of dataIn is held over at least one edge of the output clock, there is exactly one output cycle with dataOut_en for each change (at most three changes on the way).", "quantifier": "all interleavings of the clocks, all input sequences", "why_tests_cant": "Clock phases and ratios are unbounded.", "anchors": ["hwtLib/clocking/cdc.py:150-179"]}
{"id": "C79", "title": "VldSyncedCdc transfers each word once", "statement": "If the output clock is not slower than the input clock, each word given on dataIn of VldSyncedCdc appears on dataOut exactly once and in order.", "quantifier": "all input sequences, all clock interleavings with an output edge for each input edge", "why_tests_cant": "There is no test of the component; data at neighbouring cycles matter.", "anchors": ["hwtLib/clocking/vldSynced_cdc.py:76-104"]}
{"id": "C80", "title": "PseudoLru does not replace what was just used", "statement": "After mark_use_many() with the mask of a single used way, get_lru() of the new register value is not that way.", "quantifier": "all register values, all ways, 2 and 4 ways; any sequence of uses", "why_tests_cant": "The unit tests of the cache only check data; which way is evicted for each state and each history is not observed.", "anchors": ["hwtLib/amba/axi_comp/cache/pseudo_lru.py:73-99", "hwtLib/amba/axi_comp/cache/lru_array.py"]}
{"id": "C81", "title": "PseudoLru follows its documented table", "statement": "get_lru() returns the line which the decision tree in the documentation of PseudoLru gives for the register value, and the class can be used for any power of two of ways.", "quantifier": "all register values, all numbers of ways 2^k", "why_tests_cant": "No test enumerates the tree states; the assertion is only met by the sizes used in tests.", "anchors": ["hwtLib/amba/axi_comp/cache/pseudo_lru.py:62-71", "hwtLib/amba/axi_comp/cache/pseudo_lru.py:101-142"]}
{"id": "C82", "title": "FifoOutOfOrderRead never reuses an item too early", "statement": "If the user confirms only items which are being read, an item is accepted for writing exactly when it is free (never written, or its last read was confirmed), and its read is offered exactly when it was written and not yet read; items are written and read in cyclic order whatever the order of confirmations.", "quantifier": "all ITEMS > 0, all histories of write_confirm/read_execute/read_confirm", "why_tests_cant": "Out of order confirmations combined with wrap-around give unboundedly many interleavings.", "anchors": ["hwtLib/amba/axi_comp/lsu/fifo_oooread.py:65-122", "hwtLib/mem/fifo.py:59-123"]}
{"id": "C83", "title": "FifoOutOfOrderRead locks items which are read", "statement": "item_write_lock of an item is set while the item is being read; it is set only for items being read and the next one to be read; item_valid is set exactly for items which are not free.", "quantifier": "all ITEMS > 0, all histories, all items", "why_tests_cant": "The priority of confirm, write and lock in the same cycle is not covered by directed tests.", "anchors": ["hwtLib/amba/axi_comp/lsu/fifo_oooread.py:99-122"]}
{"id": "C84", "title": "FifoOutOfOrderReadFiltered lookup finds stored keys", "statement": "write_pre_lookup reports each item which is written and has the searched key, so that a write to the same address can be merged in to it.", "quantifier": "all ITEMS, all histories, all keys", "why_tests_cant": "Functionally the aggregator only gets slower if nothing is ever merged, data checks in tests still pass.", "anchors": ["hwtLib/amba/axi_comp/lsu/fifo_oooread.py:193-213", "hwtLib/amba/axi_comp/lsu/write_aggregator.py:166-188"]}
{"id": "C85", "title": "FifoOutOfOrderRead index ports are as wide as the pointers", "statement": "The index ports of the component have the width of the fifo pointers which drive them.", "quantifier": "all ITEMS >= 2", "why_tests_cant": "Tests use powers of two only.", "anchors": ["hwtLib/amba/axi_comp/lsu/fifo_oooread.py:47", "hwtLib/mem/fifo.py:70"]}
{"id": "C86", "title": "Write dispatcher sends each item as one burst of the announced length", "statement": "For each item taken from the fifo one write address with the item index as id and the item key is sent, in order; the write data are the words of the item read from the memory in order, without loss or duplication under back pressure; the number of words of a burst is aw.len + 1 with last set on the final one.", "quantifier": "all cache line sizes (number of bus words), all interleavings of stalls on all channels, all data", "why_tests_cant": "Stalls of memory, AW and W are independent, the backup register is only used for particular overlaps of them.", "anchors": ["hwtLib/amba/axi_comp/lsu/write_aggregator_write_dispatcher.py:100-234"]}
{"id": "C87", "title": "Write dispatcher offers the address without waiting for ready", "statement": "If an item is available the write address is offered even if the slave raises aw.ready only as a response to aw.valid (as AXI allows).", "quantifier": "all sizes, all environments with such a slave", "why_tests_cant": "The simulation agents raise ready independently of valid.", "anchors": ["hwtLib/amba/axi_comp/lsu/write_aggregator_write_dispatcher.py:137-174"]}
{"id": "C88", "title": "MI32 to AXI4Lite: each write is done exactly once", "statement": "Each write accepted on MI32 is exactly one accepted AXI write address; the accepted write data are the MI32 data in order, at most one word waits.", "quantifier": "all inputs and stalls on all channels, all lengths", "why_tests_cant": "AW, W and AR stalls are independent and the waiting word can overlap with any of them.", "anchors": ["hwtLib/cesnet/mi32/to_axi4Lite.py:40-80"]}
{"id": "C89", "title": "MI32 to AXI4Lite: each read is done exactly once", "statement": "Each read accepted on MI32 is exactly one accepted AXI read, if the MI32 master keeps its request until it is accepted.", "quantifier": "all inputs and stalls", "why_tests_cant": "A duplicate is sent only if write data are stalled in the cycle of the read.", "anchors": ["hwtLib/cesnet/mi32/to_axi4Lite.py:40-80"]}
{"id": "C90", "title": "AXI4Lite to MI32: accepted requests are issued in order", "statement": "The requests issued on MI32 are the accepted AXI requests, in order, none lost or repeated.", "quantifier": "all request patterns of an AXI master which keeps valid, all stalls", "why_tests_cant": "Address register, pending flags and slave stalls interact over several cycles.", "anchors": ["hwtLib/cesnet/mi32/axi4Lite_to_mi32.py:32-131"]}
{"id": "C91", "title": "AXI4Lite to MI32: a write response means that the write was done", "statement": "There are never more write responses than writes issued on MI32.", "quantifier": "all orders of address and data, all stalls", "why_tests_cant": "Simulation agents give address and data in the same cycle.", "anchors": ["hwtLib/cesnet/mi32/axi4Lite_to_mi32.py:32-131"]}
{"id": "C92", "title": "AXI4Lite to MI32: no answer is lost", "statement": "Read data are delivered in the order of the MI32 answers, none is lost.", "quantifier": "all stalls of the read channel", "why_tests_cant": "Needs a stall in the cycle between two answers.", "anchors": ["hwtLib/cesnet/mi32/axi4Lite_to_mi32.py:32-131"]}
{"id": "C93", "title": "MI32 endpoint answers each read", "statement": "Each read is answered in the next cycle with the value of the word at the time of the request.", "quantifier": "all addresses, all histories", "why_tests_cant": "The address space is large, tests read mapped words.", "anchors": ["hwtLib/cesnet/mi32/endpoint.py:30-60"]}
{"id": "C94", "title": "Address step translation", "statement": "AddressStepTranslation.propagate drives the destination address of the unit which contains the bit addressed by the source address (plus the offset); the asserts guarantee that each source address fits.", "quantifier": "all power of two unit sizes, widths, offsets and addresses", "why_tests_cant": "Unit sizes, widths and addresses form an unbounded family; the align bits use log2ceil(x - 1).", "anchors": ["hwtLib/abstract/addressStepTranslation.py:16-58"]}
{"id": "C95", "title": "Endpoint address decoder is exact", "statement": "The select of an array in the address space of an endpoint is active exactly for the addresses of the array, and the index given to it is the index of the addressed item, for aligned and unaligned offsets and any number of items.", "quantifier": "all address widths, unit sizes, offsets, sizes and addresses", "why_tests_cant": "Aligned arrays use a prefix comparison, others a range comparison and subtraction; all combinations can not be simulated.", "anchors": ["hwtLib/abstract/busEndpoint.py:291-350"]}
{"id": "C96", "title": "AxiLiteEndpoint answers each request once", "statement": "Each accepted read gets one response in order; the n-th accepted write data are written once to the n-th accepted write address and confirmed by one response; the response code is OKAY exactly for addresses in range.", "quantifier": "all request patterns, all stalls", "why_tests_cant": "Two state machines run concurrently with all interleavings.", "anchors": ["hwtLib/amba/axiLite_comp/endpoint.py:45-175"]}
{"id": "C97", "title": "AxiLiteEndpoint reads memories correctly", "statement": "A read of an item of a mapped memory returns a value this item had between the request and the response.", "quantifier": "all interleavings with writes", "why_tests_cant": "Needs a write to the same memory exactly in the cycle after the request was accepted.", "anchors": ["hwtLib/amba/axiLite_comp/endpoint.py:45-120"]}
{"id": "C98", "title": "AxiLiteEndpoint keeps read data stable", "statement": "While r.valid is active and r.ready is not, r.data do not change (required by AXI).", "quantifier": "all stalls and concurrent writes", "why_tests_cant": "Simulation agents sample data only in the cycle of the handshake.", "anchors": ["hwtLib/amba/axiLite_comp/endpoint.py:76-120"]}
{"id": "C99", "title": "AXI to AxiLite sends each burst as consecutive words", "statement": "Each accepted transaction of length len is sent as len + 1 consecutive word addresses in order, none lost or repeated under stalls, and is recorded exactly once for the response path; nothing waits when a new transaction can be accepted.", "quantifier": "all address and length widths, word sizes, transactions and stalls", "why_tests_cant": "Lengths up to 256 beats with stalls at each beat and at the fifo.", "anchors": ["hwtLib/amba/axi_comp/to_axiLite.py:82-133"]}
{"id": "C100", "title": "AXI to AxiLite follows the burst type and size", "statement": "The addresses sent to AxiLite are those of the beats of the burst according to the AXI specification.", "quantifier": "all burst types, sizes, lengths and addresses", "why_tests_cant": "Tests use INCR bursts with full aligned words.", "anchors": ["hwtLib/amba/axi_comp/to_axiLite.py:82-133"]}
{"id": "C101", "title": "AXI to AxiLite groups responses", "statement": "AxiLite responses are grouped by the recorded transactions: read data are given with id and last of their beat, of the write responses exactly the one of the last beat is given with the id.", "quantifier": "all lengths, ids and stalls", "why_tests_cant": "Transactions overlap and the fifo may be empty or full at each boundary.", "anchors": ["hwtLib/amba/axi_comp/to_axiLite.py:145-197"]}
{"id": "C102", "title": "Slave timeout gives no spurious responses", "statement": "If the slave answers each request at most once, the master never gets more responses than it sent requests.", "quantifier": "all request/answer timings, all timeouts", "why_tests_cant": "The spurious response comes only TIMEOUT (4096) cycles after the answered request.", "anchors": ["hwtLib/amba/axi_comp/slave_timeout.py:45-103"]}
{"id": "C103", "title": "Slave timeout answers for a silent slave", "statement": "A request to a slave which does not answer gets exactly one SLVERR response with its id.", "quantifier": "all timeouts, all patterns of ready of the master", "why_tests_cant": "Depends on ready in one particular cycle after a long time.", "anchors": ["hwtLib/amba/axi_comp/slave_timeout.py:45-103"]}
{"id": "C104", "title": "Slave timeout timer fits", "statement": "The timer register can hold TIMEOUT - 1.", "quantifier": "all TIMEOUT values", "why_tests_cant": "Fails only for isolated values.", "anchors": ["hwtLib/amba/axi_comp/slave_timeout.py:47-48"]}
{"id": "C105", "title": "MDIO master sends the packet of the request", "statement": "Rising edges of MDC which follow the acceptance of a request see, on the line as driven by MdioMaster, the packet of this request: preamble of ones, start 01, the opcode, the PHY address, the register address MSB first, and for a write the turnaround 10 and the data MSB first; for a read the line is released after the address. While the transaction runs a prefix of this was sent, when the master is quiet again all of it was sent.", "quantifier": "all requests, all contents of the registers at power-up, all histories, all tick patterns of the prescaler", "why_tests_cant": "the packet has 64 bits with 28 free ones, and its phase against the prescaler and the previous transaction is arbitrary", "anchors": ["hwtLib/peripheral/mdio/master.py:111-210"]}
{"id": "C106", "title": "MDIO read returns the 16 data bits", "statement": "When a read transaction of MdioMaster is over rdata.vld is set and rdata.data consists of the levels of the line at the last 16 rising edges of MDC, MSB first. A write does not produce rdata.", "quantifier": "all requests, line levels, histories, tick patterns", "why_tests_cant": "needs all data and all phases of MDC", "anchors": ["hwtLib/peripheral/mdio/master.py:111-210"]}
{"id": "C107", "title": "MDIO master gives one result per read", "statement": "In every run the count of rdata transfers is the count of accepted reads or one less, and they are equal whenever the master is ready for a next request; so no result is lost, duplicated or made up.", "quantifier": "all runs of any length with arbitrary stalls on both interfaces", "why_tests_cant": "unbounded runs", "anchors": ["hwtLib/peripheral/mdio/master.py:111-210"]}
{"id": "C108", "title": "MDIO preamble has 32 bits", "statement": "The start of each packet is preceded by 32 rising edges of MDC with the line at 1.", "quantifier": "all runs", "why_tests_cant": "depends on the phase of MDC at the time when the request is accepted; the tests use a single request", "anchors": ["hwtLib/peripheral/mdio/master.py:111-210"]}
{"id": "C109", "title": "MDIO output is stable over the rising edge of MDC", "statement": "The master does not change its contribution to the line in the same clock edge which raises MDC.", "quantifier": "all runs", "why_tests_cant": "the simulation agent samples before the edge so it can not see this", "anchors": ["hwtLib/peripheral/mdio/master.py:111-210"]}
{"id": "C110", "title": "SPI master timing logic is free of combinational loops", "statement": "For every prescaler and every initial wait the combinational logic of SpiMaster has a stable state in each cycle of each run.", "quantifier": "all parameters, all runs, all cycles", "why_tests_cant": "the loop only shows up for parameter values whose timers cannot share one counter, tests use the default power of two", "anchors": ["hwtLib/peripheral/spi/master.py:126-169", "hwtLib/clocking/timers.py"]}
{"id": "C111", "title": "SPI master transfers words MSB first in full duplex", "statement": "The bits on MOSI sampled at the rising edges of the SPI clock are exactly the accepted words, MSB first, 8 edges per word; the word returned on din at the handshake is the sequence of MISO samples at the same 8 edges; the handshake happens exactly 8 SPI periods after the word is offered, plus the initial wait for the first word and after a word with last.", "quantifier": "all supported parameters, all histories, all words, all miso values, all gaps between the words", "why_tests_cant": "tests transfer a few words with one prescaler", "anchors": ["hwtLib/peripheral/spi/master.py:100-202"]}
{"id": "C112", "title": "SPI master deselects the slave after last", "statement": "After a word with last=1 the slave is deselected and the initial slave select wait is done again before the next word.", "quantifier": "all histories", "why_tests_cant": "tests look at the data only, the chip select between back to back words is not observed", "anchors": ["hwtLib/peripheral/spi/master.py:40-46", "hwtLib/peripheral/spi/master.py:191-202"]}
{"id": "C113", "title": "I2C bit controller produces exactly the commanded bus events", "statement": "A listener on SCL/SDA (START/STOP = change of SDA while SCL is high, bit = high phase of SCL with stable SDA) sees exactly the acknowledged commands in order: START, repeated START, STOP, written bits and released bits for reads; a command is acknowledged in its 6th (START) or 5th cycle.", "quantifier": "all histories of commands with any pauses, all bus inputs without arbitration loss", "why_tests_cant": "tests check one address transfer", "anchors": ["hwtLib/peripheral/i2c/masterBitCntrl.py:256-316"]}
{"id": "C114", "title": "I2C bit controller reports a lost arbitration", "statement": "If another master holds SDA low while this master writes 1 arbitrationLost is reported; after a report the command is not acknowledged and the wires are released.", "quantifier": "all runs", "why_tests_cant": "needs a second master on the bus, no test drives SDA against the master", "anchors": ["hwtLib/peripheral/i2c/masterBitCntrl.py:205-227", "hwtLib/peripheral/i2c/masterBitCntrl.py:282-287"]}
{"id": "C115", "title": "I2C SCL rate follows clk_cnt_initVal", "statement": "With a constant clk_cnt_initVal = v each high phase of SCL lasts at least v cycles.", "quantifier": "all values of clk_cnt_initVal, all runs", "why_tests_cant": "tests use one value and look at the order of the events only", "anchors": ["hwtLib/peripheral/i2c/masterBitCntrl.py:123-150", "hwtLib/peripheral/i2c/masterBitCntrl.py:256-280"]}
{"id": "C116", "title": "I2C read returns the value of SDA", "statement": "After a READ command dout is the value of SDA while SCL was high.", "quantifier": "all runs, both values", "why_tests_cant": "the test ends with a read but does not look at dout", "anchors": ["hwtLib/peripheral/i2c/masterBitCntrl.py:182-203"]}
{"id": "C117", "title": "RamTransactional: data beats belong to accepted writes", "statement": "For every accepted write of RamTransactional exactly ITEM_WORDS beats are taken from w.data and beat k is stored to word k of the item; no beat is taken for a write whose address was not accepted.", "quantifier": "For all ITEM_WORDS, memory contents, request sequences and back pressure patterns.", "why_tests_cant": "The failure needs a write with flush which waits for a back-pressured reader while its data are already valid; tests drive address and data without such a stall.", "anchors": ["hwtLib/mem/ramTransactional.py:289-338", "hwtLib/handshaked/streamNode.py"]}
{"id": "C118", "title": "RamTransactional: flush returns the old item exactly once", "statement": "A write with flush set gives the address and the ITEM_WORDS old words of the item on flush_data exactly once, in order with the last one marked, and nothing on r.data; the memory contains the new words afterwards.", "quantifier": "For all ITEM_WORDS, items, contents and all timings of the write data relative to the write address.", "why_tests_cant": "Depends on the relative timing of w.addr, w.data, the read port and flush_data; only the gap free case is exercised by tests.", "anchors": ["hwtLib/mem/ramTransactional.py:104-169", "hwtLib/mem/ramTransactional.py:367-378"]}
{"id": "C119", "title": "RamTransactional: reads are atomic and in order", "statement": "Each accepted read gives its ITEM_WORDS words in order with its id and last mark, and the words of one read are the contents of the item at one point between two writes.", "quantifier": "For all ITEM_WORDS, ids, contents, interleavings of reads and writes and back pressure patterns.", "why_tests_cant": "Atomicity in relation to other transactions (promised in the doc string) is about every interleaving of word accesses.", "anchors": ["hwtLib/mem/ramTransactional.py:29-34", "hwtLib/mem/ramTransactional.py:184-266", "hwtLib/handshaked/ramAsAddrDataRdVld.py:69-146"]}
{"id": "C120", "title": "AXI datapump: bursts address exactly the words of each request", "statement": "The words addressed by the AXI bursts of a datapump are, in order, exactly the words which contain a byte of the driver requests; no burst is longer than the AXI length field allows; every accepted request is fully addressed.", "quantifier": "For all legal DATA_WIDTH, ALIGNAS, CHUNK_WIDTH, MAX_CHUNKS, AXI length widths, request sequences aligned to ALIGNAS and all timings of ready.", "why_tests_cant": "Splitting depends on the relation of len, offset, rem and the AXI length width; tests use few lengths and offsets.", "anchors": ["hwtLib/amba/datapump/base.py:80-270", "hwtLib/amba/datapump/intf.py:25-46"]}
{"id": "C121", "title": "AXI read datapump: data of requests", "statement": "With ALIGNAS=DATA_WIDTH and an AXI slave which answers the bursts from a memory, the driver receives exactly the words of its requests in order, all bytes valid but in the last word where rem bytes are, last set on the last word of a request only, and one word for each word of the slave.", "quantifier": "For all request sequences, memory contents, splits and timings of all channels.", "why_tests_cant": "Splits, fifo occupancy and back pressure combine in unbounded ways.", "anchors": ["hwtLib/amba/datapump/r.py:112-275"]}
{"id": "C122", "title": "AXI read datapump: read error", "statement": "errorRead stays high after an error response of the AXI slave and does not affect the functionality of the unit.", "quantifier": "For all runs and all positions of error responses.", "why_tests_cant": "An error can come at any word of any transaction; the doc string promises independence of two runs.", "anchors": ["hwtLib/amba/datapump/r.py:66-67", "hwtLib/amba/datapump/r.py:182-203", "hwtLib/amba/datapump/r.py:252-275"]}
{"id": "C123", "title": "AXI write datapump: bursts and acknowledges", "statement": "With ALIGNAS=DATA_WIDTH the words of the driver are written in order, w.last marks the end of each announced AXI burst, no burst is written before it was announced, responses are taken for finished bursts only and the driver gets one acknowledge per request, at the response of its last burst.", "quantifier": "For all request sequences, lengths, splits and timings of AW, W, B, the driver and the fifos.", "why_tests_cant": "AW, W and B are independent; the count of bursts in flight is arbitrary.", "anchors": ["hwtLib/amba/datapump/w.py:115-243"]}
{"id": "C124", "title": "AXI datapumps: alignment error", "statement": "errorAlignment is raised by requests whose address is not aligned to ALIGNAS and by no other requests.", "quantifier": "For all parameters and all request sequences.", "why_tests_cant": "Legal addresses which are not aligned to DATA_WIDTH with ALIGNAS between 8 and DATA_WIDTH are needed.", "anchors": ["hwtLib/amba/datapump/w.py:252-258", "hwtLib/amba/datapump/r.py:263-275", "hwtLib/amba/datapump/base.py:86-86"]}
{"id": "C125", "title": "AXI datapumps: 4 KB boundary", "statement": "An AXI burst of a datapump never crosses a 4 KB address boundary (required by the AXI specification).", "quantifier": "For all requests, lengths and addresses.", "why_tests_cant": "Only long requests at particular addresses cross the boundary; the simulated slave accepts such bursts.", "anchors": ["hwtLib/amba/datapump/base.py:163-270"]}
{"id": "C126", "title": "AXI datapumps: MAX_CHUNKS requests are expressible", "statement": "A request of any size up to MAX_CHUNKS chunks can be expressed in the len field of the driver interface.", "quantifier": "For all DATA_WIDTH, CHUNK_WIDTH, MAX_CHUNKS and request sizes.", "why_tests_cant": "It is a relation between parameters; the test configurations have small sizes only.", "anchors": ["hwtLib/amba/datapump/intf.py:23-46", "hwtLib/amba/datapump/intf.py:103-117", "hwtLib/amba/datapump/intf.py:180-200", "hwtLib/amba/datapump/r.py:80-90"]}
{"id": "C127", "title": "AXI matrix routes each request once to the slave of its address", "statement": "For AxiInterconnectMatrixR and AxiInterconnectMatrixW: whatever the masters, the slaves and the arbiters do, the requests seen by a slave are exactly the requests which the masters have handed over with an address in the range of this slave, in the order of the handovers, with the address relative to the start of the range; a request whose address is not in the range of a slave is not seen by it, none is lost or doubled.", "quantifier": "every number of masters and slaves, every disjoint address map, every schedule of valid and ready on all ports, every arbitration, every run length", "why_tests_cant": "The address crossbar joins all masters with all slaves combinationally; the tests run a few masters against ideal slaves.", "anchors": ["hwtLib/amba/axi_comp/interconnect/matrixAddrCrossbar.py:87-261", "hwtLib/amba/axi_comp/interconnect/matrixR.py:72-96", "hwtLib/amba/axi_comp/interconnect/matrixW.py:103-173"]}
{"id": "C128", "title": "AXI read matrix returns the bursts of a master in the order of its requests", "statement": "If every slave answers its requests in order with one burst each, then the words which a master receives from AxiInterconnectMatrixR are the bursts of the slaves which belong to the requests of this master, in the order in which it has issued them, each burst uninterrupted; no word of another master is delivered to it.", "quantifier": "every number of masters and slaves, burst lengths and contents, every interleaving of requests and data, every run length", "why_tests_cant": "Needs concurrent bursts of several slaves with arbitrary stalls; the number of interleavings is unbounded.", "anchors": ["hwtLib/amba/axi_comp/interconnect/matrixCrossbar.py:92-197", "hwtLib/amba/axi_comp/interconnect/matrixR.py:72-96"]}
{"id": "C129", "title": "Data routing of AXI matrix does not deadlock", "statement": "In every reachable state in which a request is not answered yet, if all sources have data and all destinations are ready, then the data crossbar of AxiInterconnectMatrixR and of AxiInterconnectMatrixW transfers a word: the two order FIFOs of the crossbar never wait for each other.", "quantifier": "every reachable state for every number of masters and slaves, every earlier schedule", "why_tests_cant": "A circular wait between order FIFOs depends on a rare interleaving of the requests.", "anchors": ["hwtLib/amba/axi_comp/interconnect/matrixCrossbar.py:92-197", "hwtLib/amba/axi_comp/interconnect/matrixAddrCrossbar.py:87-261"]}
{"id": "C130", "title": "AXI write matrix brings the data bursts and responses to the right port", "statement": "The write data bursts which a master sends are delivered to the slaves of its write requests, each slave receives the bursts in the order of the requests it has got, uninterrupted; the response of a slave is delivered to the master of the request, a master receives the responses in the order of its requests.", "quantifier": "every number of masters and slaves, burst lengths and contents, every interleaving of the three channels, every run length", "why_tests_cant": "Needs several concurrent bursts on three channels with arbitrary stalls.", "anchors": ["hwtLib/amba/axi_comp/interconnect/matrixW.py:103-173", "hwtLib/amba/axi_comp/interconnect/matrixCrossbar.py:92-197"]}
{"id": "C131", "title": "AXI matrix accepts every request", "statement": "A request which a master holds valid is accepted after a bounded number of cycles in which the slaves and the order FIFOs are ready and the arbiter rotates.", "quantifier": "every address, every address map, every behaviour of the other masters", "why_tests_cant": "The tests use mapped addresses only; the bound has to hold for every behaviour of the other masters.", "anchors": ["hwtLib/amba/axi_comp/interconnect/matrixAddrCrossbar.py:87-261"]}
{"id": "C132", "title": "Request on a slave port of AXI matrix is stable until taken", "statement": "While a slave port of the address crossbar has valid and the slave is not ready, the payload (address, length, id) is defined and does not change until the slave takes it, as AXI4 requires.", "quantifier": "every number of masters, every schedule of valid and ready, every arbitration", "why_tests_cant": "Depends on a second request which comes while the slave stalls.", "anchors": ["hwtLib/amba/axi_comp/interconnect/matrixAddrCrossbar.py:87-261"]}
{"id": "C133", "title": "Address of a slave port of AXI matrix is wide enough for its range", "statement": "The ADDR_WIDTH of a slave port can represent every address relative to the start of the range of the slave.", "quantifier": "every size of address range", "why_tests_cant": "The tests use ranges of sizes which are a power of two.", "anchors": ["hwtLib/amba/axi_comp/interconnect/common.py:36-37", "hwtLib/amba/axi_comp/interconnect/matrixAddrCrossbar.py:87-261"]}
{"id": "C134", "title": "ReorderBuffer delivers the words in the order of their ids", "statement": "ReorderBuffer gives out the words in the order of their ids (the ids run round modulo 2^ID_WIDTH): word number n on dataOut is the (n / 2^ID_WIDTH)-th word accepted on dataIn with the id n % 2^ID_WIDTH; a word with an id whose place is still occupied waits, nothing is lost, doubled or replaced.", "quantifier": "every ID_WIDTH, every order of ids and words, every schedule of valid and ready, every run length", "why_tests_cant": "The tests send the same words in both rounds, so a replaced word is not visible; the order of arrivals and the stalls are unbounded.", "anchors": ["hwtLib/amba/axi_comp/oooOp/reorder_buffer.py:110-151", "hwtLib/handshaked/streamNode.py:330-350"]}
{"id": "C135", "title": "ReorderBuffer delivers what is complete", "statement": "If the first n words of the sequence have arrived, in whatever order, and the consumer is ready then all of them are delivered within n + 3 cycles.", "quantifier": "every ID_WIDTH, every order of arrival, every earlier schedule, every n", "why_tests_cant": "The number of reachable states is exponential in the number of ids.", "anchors": ["hwtLib/amba/axi_comp/oooOp/reorder_buffer.py:110-151", "hwtLib/handshaked/ramAsAddrDataRdVld.py:69-103"]}
{"id": "C136", "title": "Strict order interconnects hand every request over once", "statement": "RStrictOrderInterconnect and WStrictOrderInterconnect give the datapump exactly the requests which the drivers handed over, each once, in the order in which they were accepted; in a cycle at most one driver is accepted.", "quantifier": "every driver count of at least two, every execution of requests, stalls of the datapump and stalls of the order fifo", "why_tests_cant": "The join, the order fifo and the datapump are synchronised by three handshakes; a lost or doubled request needs a particular alignment of stalls.", "anchors": ["hwtLib/amba/axi_comp/interconnect/base.py:68-80", "hwtLib/amba/datapump/interconnect/rStricOrder.py:17-80", "hwtLib/amba/datapump/interconnect/wStrictOrder.py:17-118"]}
{"id": "C137", "title": "Read strict order interconnect routes every word to the driver of its request", "statement": "If the datapump answers the requests in order with one burst (last on its final word) each, the words given to the drivers are the words of the datapump in the same cycle, and the driver of each word is the one which issued the request; no word is lost, doubled or given to two drivers.", "quantifier": "every driver count of at least two, every burst plan, every execution and stalls on all channels", "why_tests_cant": "Routing depends on the relation of the order fifo to the number of last words, over unbounded runs with any stall pattern.", "anchors": ["hwtLib/amba/datapump/interconnect/rStricOrder.py:17-80"]}
{"id": "C138", "title": "Write strict order interconnect sends bursts in order of requests and routes acknowledges back", "statement": "If every driver sends one burst for each of its requests, the datapump gets the bursts complete, in the order of the requests, without words of other drivers between; acknowledges are given to the drivers of finished bursts in order, none lost or doubled.", "quantifier": "every driver count of at least two, every burst plan per driver, every execution and stalls on all channels and both fifos", "why_tests_cant": "Two fifos are popped and pushed under different handshake conditions; a mismatch shows only under particular stall combinations.", "anchors": ["hwtLib/amba/datapump/interconnect/wStrictOrder.py:17-118"]}
{"id": "C139", "title": "Stalled output of HsJoinFairShare keeps its word", "statement": "If dataOut of HsJoinFairShare has vld without rd and every input keeps a word not taken, dataOut keeps vld and the data in the next cycle.", "quantifier": "every INPUTS, every history, every two consecutive cycles", "why_tests_cant": "Test agents sample data only when the transfer happens, a change of the payload during a stall is not observed.", "anchors": ["hwtLib/handshaked/joinFair.py:63-125"]}
{"id": "C140", "title": "ArrayItemGetter returns the items with the wanted indexes", "statement": "For every index accepted, ArrayItemGetter requests the memory word which contains the item of the array at base, and if the datapump answers from the memory in order, it gives out exactly the wanted items, in the order of the indexes, none lost or doubled.", "quantifier": "every array, index sequence, memory content, item width of 8*2^k bits not greater than the word, every stalling of all channels", "why_tests_cant": "The position of the item in the word travels through a fifo beside the memory access, the alignment of it depends on stalls; the address computation depends on parameters which tests fix to one value.", "anchors": ["hwtLib/structManipulators/arrayItemGetter.py:18-102"]}
{"id": "C141", "title": "CLinkedListReader delivers the items of the linked list in order", "statement": "If the datapump answers the requests in order from the memory, the words on dataOut are the items of the nodes of the linked list from the first one, in order, without node pointers, none lost or doubled.", "quantifier": "every memory and list (circular too), node size, burst size, every execution with stalls on all channels and any pointer updates", "why_tests_cant": "Bursts are cut by node end, pointers and buffer size; the pointer word is spliced out of the stream of data by its id. Tests use few sizes which are multiples of each other.", "anchors": ["hwtLib/structManipulators/cLinkedListReader.py:20-215"]}
{"id": "C142", "title": "CLinkedListReader never reads past the write pointer", "statement": "The items requested and given out never outnumber the items which the driver made available by wrPtr.", "quantifier": "every memory, list, parameters, execution and pointer updates", "why_tests_cant": "The bound is the minimum of three quantities of different bit widths in modulo arithmetic; only wrap around with particular distances violates it.", "anchors": ["hwtLib/structManipulators/cLinkedListReader.py:88-215"]}
{"id": "C143", "title": "CLinkedListReader never gets stuck", "statement": "While words of a requested burst are missing the reader takes each of them for which its fifo has a place, and when no burst is pending, space in the buffer and available items are given it has a request valid.", "quantifier": "every memory and list, every parameters with PTR_WIDTH at least the width of inBlockRemain, every reachable state", "why_tests_cant": "Absence of a deadlock is a statement about all reachable states.", "anchors": ["hwtLib/structManipulators/cLinkedListReader.py:88-215"]}
{"id": "C144", "title": "CLinkedListWriter writes the items to the nodes of the linked list", "statement": "If the read datapump answers the requests for next node addresses from the memory, the k-th item is written to the place of the k-th item of the linked list, node pointers are not overwritten.", "quantifier": "every memory and list, every execution in which the datapump acknowledges finished bursts", "why_tests_cant": "The existing test of two nodes uses nodes which follow each other in memory, so the jump between nodes is not observed.", "anchors": ["hwtLib/structManipulators/cLinkedListWriter.py:116-165", "hwtLib/structManipulators/cLinkedListWriter.py:205-259", "hwtLib/structManipulators/cLinkedListWriter.py:324-330"]}
{"id": "C145", "title": "CLinkedListWriter sends all words of a requested burst before it waits for the acknowledge", "statement": "When the writer waits for an acknowledge, all requested words have been sent and exactly the final word of each burst had last.", "quantifier": "every execution, every stalling of the datapump and of the buffer", "why_tests_cant": "Only a stall in exactly the cycle of the final word shows the difference.", "anchors": ["hwtLib/structManipulators/cLinkedListWriter.py:235-259", "hwtLib/structManipulators/cLinkedListWriter.py:291-304"]}
{"id": "C146", "title": "CLinkedListWriter never writes more items than there are free places, wrPtr counts acknowledged items", "statement": "The number of items in all write requests is at most the number of places free at start plus the places freed by rdPtr; wrPtr is the start value plus the number of items of acknowledged requests.", "quantifier": "every parameters with TIMEOUT > 0, every execution with legal pointer updates and acknowledges", "why_tests_cant": "Modulo arithmetic of pointers combined with burst cutting; a violation needs particular distances.", "anchors": ["hwtLib/structManipulators/cLinkedListWriter.py:178-233", "hwtLib/structManipulators/cLinkedListWriter.py:279-282"]}
{"id": "C147", "title": "CLinkedListWriter writes the input words in order", "statement": "The words sent to the write datapump are the words taken on dataIn, in order, none lost or doubled.", "quantifier": "every execution and stalling", "why_tests_cant": "A statement about all interleavings of stalls.", "anchors": ["hwtLib/structManipulators/cLinkedListWriter.py:235-259"]}
{"id": "C148", "title": "Timeout of CLinkedListWriter flushes incomplete bursts", "statement": "If there are free places, the items in the buffer are written some time after TIMEOUT even if no more items come.", "quantifier": "every execution followed by a silent input", "why_tests_cant": "Liveness under absence of inputs; tests feed enough items.", "anchors": ["hwtLib/structManipulators/cLinkedListWriter.py:61-63", "hwtLib/structManipulators/cLinkedListWriter.py:167-176", "hwtLib/structManipulators/cLinkedListWriter.py:205-233", "hwtLib/structManipulators/cLinkedListWriter.py:291-307"]}
{"id": "C149", "title": "ArrayBuff_writer writes items circularly to the array", "statement": "The k-th item is written to the word k mod ITEMS of the array at the base address, bursts never leave the array.", "quantifier": "every ITEMS, BUFF_DEPTH, TIMEOUT, DATA_WIDTH, every execution", "why_tests_cant": "Cutting of bursts at the end of the array depends on the number of buffered items and parameter widths; tests use one set of parameters.", "anchors": ["hwtLib/structManipulators/arrayBuff_writer.py:80-175"]}
{"id": "C150", "title": "ArrayBuff_writer sends complete bursts in order and counts uploaded items", "statement": "The words sent are the items taken, in order, last is exactly on the final word of each requested burst, bursts are complete when the acknowledge is awaited and uploaded is the number of items of acknowledged bursts.", "quantifier": "every parameters, every execution and stalling", "why_tests_cant": "Two counters and a state machine run under different handshakes; mismatch depends on stalls and parameters.", "anchors": ["hwtLib/structManipulators/arrayBuff_writer.py:70-78", "hwtLib/structManipulators/arrayBuff_writer.py:112-205"]}
{"id": "C151", "title": "ArrayBuff_writer requests only words which it has", "statement": "The number of words requested never exceeds the number of items taken, so a started burst never waits for items to come.", "quantifier": "every parameters and execution", "why_tests_cant": "A statement about all histories including timeouts with an almost empty buffer.", "anchors": ["hwtLib/structManipulators/arrayBuff_writer.py:144-180"]}
{"id": "C152", "title": "Write request of ArrayBuff_writer is stable until taken", "statement": "If req is valid and not ready, it is valid with the same address and length in the next cycle.", "quantifier": "every execution", "why_tests_cant": "Agents sample the payload only when the transfer happens.", "anchors": ["hwtLib/structManipulators/arrayBuff_writer.py:112-140", "hwtLib/structManipulators/arrayBuff_writer.py:160-180"]}
{"id": "C153", "title": "MMU translates in order", "statement": "physOut of MMU_2pageLvl carries the two-level translation (page address from the level 2 item, offset from the virtual address) of the addresses accepted from virtIn, in order and each at most once, and only for addresses which are mapped on both levels and follow no unmapped address; the level 1 table is initialised before the first request.", "quantifier": "all widths, level 1 tables, memory contents, sequences of inputs and timings of the internal queues", "why_tests_cant": "Tests check a few translations with one timing; three queues have to stay aligned under all interleavings of stalls and a segfault in flight.", "anchors": ["hwtLib/structManipulators/mmu_2pageLvl.py:113-150"]}
{"id": "C154", "title": "MMU does not read memory for unmapped addresses", "statement": "MMU_2pageLvl does not request a level 2 item for a virtual address whose level 1 item is invalid.", "quantifier": "all configurations and sequences of inputs", "why_tests_cant": "The read of a bogus address is not visible on physOut; tests only check the segfault flag.", "anchors": ["hwtLib/structManipulators/mmu_2pageLvl.py:126-138", "hwtLib/structManipulators/mmu_2pageLvl.py:152-164"]}
{"id": "C155", "title": "MMU segfault is exact", "statement": "segfault of MMU_2pageLvl rises only if an unmapped address was accepted, it stays high and blocks physOut; when everything outstanding has been answered segfault is high if any accepted address is unmapped, otherwise every accepted address has been translated.", "quantifier": "all configurations, sequences of inputs and timings, any number of draining cycles from twice the number of addresses", "why_tests_cant": "Absence of spurious segfaults and of lost addresses is a statement about all executions.", "anchors": ["hwtLib/structManipulators/mmu_2pageLvl.py:140-164"]}
{"id": "C156", "title": "DataRdVldToAxi4Stream keeps the data", "statement": "The words of the frames are exactly the accepted input words in order; at most the last of them waits in the unit (none if there is only MAX_FRAME_WORDS).", "quantifier": "all configurations (timeout, size limit, both), inputs and consumer timings", "why_tests_cant": "Loss or duplication on the coincidence of timeout, new input and backpressure needs all interleavings.", "anchors": ["hwtLib/handshaked/dataRdVldToAxi4Stream.py:48-119"]}
{"id": "C157", "title": "Frames of DataRdVldToAxi4Stream respect MAX_FRAME_WORDS", "statement": "No frame has more than MAX_FRAME_WORDS words; without IN_TIMEOUT each frame has exactly MAX_FRAME_WORDS words.", "quantifier": "all configurations, inputs and timings", "why_tests_cant": "Any number of frames and any mixture of timeouts.", "anchors": ["hwtLib/handshaked/dataRdVldToAxi4Stream.py:55-83", "hwtLib/handshaked/dataRdVldToAxi4Stream.py:105-119"]}
{"id": "C158", "title": "DataRdVldToAxi4Stream flushes on timeout", "statement": "If the consumer is ready and there is no input for IN_TIMEOUT cycles, everything accepted is sent and the frame is closed by last.", "quantifier": "all configurations with a timeout, all histories", "why_tests_cant": "The stuck word depends on the position of the word in the frame; tests with a timeout and with a size limit are separate.", "anchors": ["hwtLib/handshaked/dataRdVldToAxi4Stream.py:39-46", "hwtLib/handshaked/dataRdVldToAxi4Stream.py:55-102"]}
{"id": "C159", "title": "DataRdVldToAxi4Stream closes frames only on timeout", "statement": "A frame with less than MAX_FRAME_WORDS words is closed only after IN_TIMEOUT - 1 cycles without an input just before its last word is sent.", "quantifier": "all configurations with a timeout, all histories", "why_tests_cant": "Depends on gaps between the words of one frame.", "anchors": ["hwtLib/handshaked/dataRdVldToAxi4Stream.py:62-66", "hwtLib/handshaked/dataRdVldToAxi4Stream.py:93-97"]}
{"id": "C160", "title": "HsSlrCrossing transfers each word once", "statement": "The words delivered by the SLR crossing are the words accepted, in order, each exactly once; everything accepted is delivered when the consumer is ready.", "quantifier": "all inputs and consumer timings from every state after reset, any data type", "why_tests_cant": "The ready is two cycles late and the pipeline holds up to five words; all stall patterns have to be considered.", "anchors": ["hwtLib/xilinx/slr_crossing.py:40-57", "hwtLib/xilinx/slr_crossing.py:80-119", "hwtLib/xilinx/primitive/lutAsShiftReg.py:38-49"]}
{"id": "C161", "title": "Output of HsSlrCrossing is stable", "statement": "A word offered by the SLR crossing and not taken stays offered unchanged in the next cycle.", "quantifier": "all states, inputs", "why_tests_cant": "Agents sample on transfers only.", "anchors": ["hwtLib/xilinx/slr_crossing.py:110-119"]}
{"id": "C162", "title": "MultiplierBooth computes the signed product", "statement": "The results of MultiplierBooth are the signed products of the accepted operands on 2*DATA_WIDTH bits, in order, for all operands from -2^(DATA_WIDTH-1) to 2^(DATA_WIDTH-1)-1.", "quantifier": "all widths, operands and timings", "why_tests_cant": "Tests multiply a few small non-negative numbers on 4 bits.", "anchors": ["hwtLib/examples/arithmetic/multiplierBooth.py:49-63", "hwtLib/examples/arithmetic/multiplierBooth.py:78-134"]}
{"id": "C163", "title": "MultiplierBooth latency", "statement": "The result is offered for the first time exactly DATA_WIDTH cycles after the cycle in which the operands were accepted.", "quantifier": "all widths, states and inputs", "why_tests_cant": "Any input and any width.", "anchors": ["hwtLib/examples/arithmetic/multiplierBooth.py:89-134"]}
{"id": "C164", "title": "RamCumulativeMask reads", "statement": "After a read is accepted by a read port (en.vld and en.rd), the port shows data and mask of the address read, as left by the writes accepted before.", "quantifier": "all widths, contents, ports and sequences of operations in which the writer keeps a write which is not accepted yet", "why_tests_cant": "The conflict needs a read in the second cycle of an accumulating write; the source has a TODO on it.", "anchors": ["hwtLib/mem/ramCumulativeMask.py:150-171"]}
{"id": "C165", "title": "RamCumulativeMask writes", "statement": "Accepted writes store the enabled bytes and replace (do_overwrite or no do_accumulate) or accumulate (do_accumulate) the mask of the word, in the order of acceptance; an accumulating write is accepted in its second cycle.", "quantifier": "all widths, contents and sequences of operations in which the writer keeps a write which is not accepted yet", "why_tests_cant": "All masks, interleavings of modes and addresses.", "anchors": ["hwtLib/mem/ramCumulativeMask.py:24-36", "hwtLib/mem/ramCumulativeMask.py:117-160"]}
{"id": "C166", "title": "AXI stream to LocalLink and back", "statement": "A stream of packed words converted by Axi4SToLocalLink and back by LocalLinkToAxi4S is unchanged, except that the first word of a frame is marked as start of packet and the last one as end of packet.", "quantifier": "all streams of packed words, all data widths divisible by 8", "why_tests_cant": "Tests convert a few frames of one width; the converters are not tested together.", "anchors": ["hwtLib/xilinx/locallink/axis_conv.py:15-18", "hwtLib/xilinx/locallink/axis_conv.py:59-106", "hwtLib/xilinx/locallink/axis_conv.py:139-163", "hwtLib/xilinx/locallink/hIOLocallink.py:22-29"]}
{"id": "C167", "title": "LocalLink frames", "statement": "Axi4SToLocalLink marks start of frame exactly on the first word after the reset and after each word with last, end of frame exactly on words with last, start of packet on each start of frame and end of packet on each end of frame.", "quantifier": "all streams and positions", "why_tests_cant": "Any sequence of frames.", "anchors": ["hwtLib/xilinx/locallink/axis_conv.py:59-93"]}
{"id": "C168", "title": "Axi4sFrameGen frames", "statement": "After len = l (at most MAX_LEN) is written, the words sent are those of frames of l + 1 words numbered from l down to 0 with last on 0; words are offered exactly while enable is set.", "quantifier": "all configurations, lengths, states before the write, timings of the consumer", "why_tests_cant": "Number of frames and the place of the stalls are unbounded; the boundary value of the length depends on the parameter.", "anchors": ["hwtLib/amba/axis_comp/frameGen.py:49-86"]}
{"id": "C169", "title": "Output of Axi4sFrameGen is stable", "statement": "A word offered and not taken is offered unchanged in the next cycle.", "quantifier": "all states and inputs", "why_tests_cant": "Needs a control write in a cycle with a stalled word.", "anchors": ["hwtLib/amba/axis_comp/frameGen.py:54-86"]}
{"id": "C170", "title": "Axi4SStoredBurst sends exactly DATA", "statement": "With DATA given as bytes, a sink which is ready long enough receives over dataOut (bytes enabled by strb/keep, in order) exactly DATA in one frame. With DATA given as a tuple of words, the k-th transferred word is word k mod len(DATA), last is set exactly on the last word, and without REPEAT exactly len(DATA) words are sent.", "quantifier": "every DATA, word width, REPEAT and ready schedule", "why_tests_cant": "The existing test only uses tuple data; every length of bytes data relative to the word width would have to be tried.", "anchors": ["hwtLib/amba/axis_comp/storedBurst.py:57-108"]}
{"id": "C171", "title": "Axi4S_fifoMeasuring reports the size of every frame", "statement": "The k-th item delivered on sizes is the number of bytes of the k-th frame delivered on dataOut (frames with full words but the last one, whose low lanes are enabled).", "quantifier": "every data width, MAX_LEN, traffic and stalls on all three interfaces", "why_tests_cant": "The size depends on frame length, mask and the interleaving of two fifos; tests use 64 b words and few frames.", "anchors": ["hwtLib/amba/axis_comp/fifoMeasuring.py:64-127"]}
{"id": "C172", "title": "Axi4S_fifoMeasuring keeps the data and splits only too long frames", "statement": "dataOut carries data and strb of the words of dataIn in order, last of dataIn is kept and is added only on the (MAX_LEN+1)-th word of a frame; no frame on dataOut has more than MAX_LEN+1 words; the number of sizes equals the number of frames put into the data fifo; errorAlignment is 1 iff an incomplete word which is not last was offered before.", "quantifier": "every traffic, MAX_LEN and stall pattern", "why_tests_cant": "The overflow branch and its interaction with stalls have unboundedly many schedules.", "anchors": ["hwtLib/amba/axis_comp/fifoMeasuring.py:64-127"]}
{"id": "C173", "title": "Axi4S_footerSplit splits every frame", "statement": "For every sequence of frames with at least FOOTER_WIDTH bits (full words but the last one), dataOut[0] carries for each frame exactly one frame with its bytes without the footer (one empty word if nothing remains), dataOut[1] exactly one frame with the last FOOTER_WIDTH/8 bytes; nothing else is sent, and after all words were accepted LOOK_AHEAD+1 clocks with both outputs ready send everything. The input is accepted always when both outputs are ready.", "quantifier": "every data and footer width, sequence of frames, handshake schedule and power-up content of data registers", "why_tests_cant": "Alignment of the footer, gaps on input and independent stalls of both outputs give unboundedly many schedules; tests use few frame lengths.", "anchors": ["hwtLib/amba/axis_comp/frame_parser/footer_split.py:134-354"]}
{"id": "C174", "title": "Axi4S_footerSplit offers words independently of ready", "statement": "valid of dataOut[0] and dataOut[1] does not depend on ready of the outputs in the same clock (AXI-Stream rule: a master must not wait for ready before it asserts valid).", "quantifier": "every state and input", "why_tests_cant": "Simulation agents assert ready without waiting for valid, so the mutual wait can not be observed.", "anchors": ["hwtLib/amba/axis_comp/frame_parser/footer_split.py:289-325"]}
{"id": "C175", "title": "RmiiAdapter receiver delivers every frame", "statement": "For every sequence of frames on RMII (zero symbols, 7 B preamble, SFD, whole bytes of payload, gap of at least 8/RMII_W+1 clocks) the bytes of payload are delivered on rx in order without err and last is set exactly on the last byte of each frame.", "quantifier": "every number and length of frames, gap, number of leading zero symbols, RMII_W with several symbols in byte", "why_tests_cant": "The test receives one frame; boundaries of consecutive frames and gap lengths are unbounded.", "anchors": ["hwtLib/peripheral/ethernet/rmii_adapter.py:141-223"]}
{"id": "C176", "title": "RmiiAdapter receiver resynchronises in a gap", "statement": "Whatever was on the line before, a frame after a sufficiently long gap without carrier is received.", "quantifier": "every line history and gap length", "why_tests_cant": "Needs all histories of the line, e.g. carrier which ends within the preamble.", "anchors": ["hwtLib/peripheral/ethernet/rmii_adapter.py:176-213"]}
{"id": "C177", "title": "RmiiAdapter receiver reports wrong headers", "statement": "A frame with a wrong byte in preamble or SFD delivers no data, only items with err, the last of them (and only it) marked by last, and the following frame is received.", "quantifier": "every wrong byte, its position in the header, following symbols and gap of at least 2 clocks", "why_tests_cant": "No test uses a wrong header.", "anchors": ["hwtLib/peripheral/ethernet/rmii_adapter.py:176-223"]}
{"id": "C178", "title": "RmiiAdapter receiver terminates every frame", "statement": "The last item delivered for a frame with valid header and at least one whole byte has last or err.", "quantifier": "every number of symbols in the frame", "why_tests_cant": "Tests send only whole bytes.", "anchors": ["hwtLib/peripheral/ethernet/rmii_adapter.py:172-223"]}
{"id": "C179", "title": "AXI to Avalon bridge performs each read request once", "statement": "The reads performed by Axi4_to_AvalonMm on Avalon are exactly the read requests accepted on AR, in order, with their address and burstCount = len + 1; at most one accepted request is not performed yet and it is presented on the Avalon interface.", "quantifier": "for each configuration, both priorities, all executions including any waitRequest, writes and fifo stalls", "why_tests_cant": "The single address register is shared by reads and writes with two handshakes; a request lost or repeated needs a particular overlap of waitRequest, write data and new requests", "anchors": ["hwtLib/avalon/axiToMm.py:Axi4_to_AvalonMm"]}
{"id": "C180", "title": "AXI to Avalon bridge performs the accepted writes", "statement": "The words written on Avalon are the words of the accepted AXI write requests (address and burstCount of the request), in order and with the accepted data, and a B response with the id is sent exactly once for each complete burst. (Code: with the default RW_PRIORITY=READ a write waiting next to a read request which cannot be accepted is performed without accepting its address, so it is repeated.)", "quantifier": "for each configuration, all executions with any waits of both sides", "why_tests_cant": "The tests never let a read request wait for the space of the fifo while a write is pending", "anchors": ["hwtLib/avalon/axiToMm.py:Axi4_to_AvalonMm"]}
{"id": "C181", "title": "AXI to Avalon bridge returns all read data", "statement": "Words on the R channel are the answers of the accepted read requests: id and last per request in order, with the data provided by Avalon in order without loss, a provided word is offered, and the reserved space is released so that a request of up to R_DATA_FIFO_DEPTH words is accepted when everything was returned. (Code: the length of the request is truncated to the width of the capacity register, a long burst is accepted without the space for it and its data are lost.)", "quantifier": "for each fifo depth, all executions with an Avalon slave which provides data only for reads accepted before", "why_tests_cant": "The overflow needs a burst longer than the range of the capacity register and a master which is not ready", "anchors": ["hwtLib/avalon/axiToMm.py:Axi4_to_AvalonMm"]}
{"id": "C182", "title": "AXI to Avalon bridge does not wait with valid for ready", "statement": "The valid signals of the R and B channel do not depend on the ready signals of the master, as AXI requires. (Code: B valid depends on B ready, a master which waits for B valid before it asserts B ready never gets the response and its last word is never accepted.)", "quantifier": "for all states and inputs", "why_tests_cant": "Test agents assert B ready independently of valid so the deadlock is not visible", "anchors": ["hwtLib/avalon/axiToMm.py:Axi4_to_AvalonMm"]}
{"id": "C183", "title": "Avalon to AXI bridge forwards each request", "statement": "AvalonMm_to_Axi4 forwards each accepted Avalon request exactly once and in order: a read as AR with len = burstCount - 1, the first word of a write burst as AW with this len together with W, the other words as W, and W last is set exactly for the last word of each burst; a request is accepted if the AXI slave is ready.", "quantifier": "for each width of burstCount, with and without bursts, all executions with any ready of the AXI channels", "why_tests_cant": "The AW and W handshakes are tied together by a counter, wrong framing needs particular combinations of ready and burst lengths", "anchors": ["hwtLib/avalon/mmToAxi.py:AvalonMm_to_Axi4"]}
{"id": "C184", "title": "Avalon to AXI bridge reports the responses", "statement": "Read data are returned as they come, write responses are reported with the error of the AXI response, and the error of a read is reported together with the data. (Code: response is driven only by the B channel, errors of reads are lost.)", "quantifier": "for all states and inputs", "why_tests_cant": "Tests use only OKAY responses", "anchors": ["hwtLib/avalon/mmToAxi.py:AvalonMm_to_Axi4"]}
{"id": "C185", "title": "Avalon to AXI bridge does not wait with valid for ready", "statement": "The valid signals of AR, AW and W do not depend on ready of the AXI slave. (Code: AW valid requires W ready and W valid requires AW ready, with a slave which waits for valid no write is ever offered.)", "quantifier": "for all executions", "why_tests_cant": "The simulation agents assert ready without waiting for valid", "anchors": ["hwtLib/avalon/mmToAxi.py:AvalonMm_to_Axi4"]}
{"id": "C186", "title": "burstCount of Avalon can express MAX_BURST", "statement": "The burstCount signal of AvalonMM can contain each length of a burst from 1 to MAX_BURST. (Code: the width is log2ceil(MAX_BURST), for a power of two the longest burst does not fit.)", "quantifier": "for each MAX_BURST", "why_tests_cant": "It is a statement about all values of a parameter; tests use a single one", "anchors": ["hwtLib/avalon/mm.py:AvalonMM.hwDeclr"]}
{"id": "C187", "title": "Stream to memory DMA writes the started copies", "statement": "The AW and W transfers of Axi4streamToMem are the copies which were started (component idle and on), in order: each copy consists of bursts of at most MAX_BUTST_LEN words at consecutive addresses from the base address at the start, DATA_LEN words together, with last exactly at the end of each burst and aw.len matching; data are the input words in order; when idle everything started is complete. (Code: with MAX_BUTST_LEN = 1 the bursts are not terminated.)", "quantifier": "for each DATA_LEN, MAX_BUTST_LEN, width and each execution with any ready, input stalls and register writes", "why_tests_cant": "The split depends on the remainder of DATA_LEN / MAX_BUTST_LEN and on the order of handshakes, tests use one length", "anchors": ["hwtLib/amba/axi_comp/stream_to_mem.py:Axi4streamToMem"]}
{"id": "C188", "title": "Stream to memory DMA control register bits", "statement": "The control register contains on/off in bit 0 (as written) and idle in bit 1 as documented. (Code: they are in the two most significant bits when read.)", "quantifier": "for each width and execution", "why_tests_cant": "Documentation of the register versus its read value for all executions; the test checks only the transfers", "anchors": ["hwtLib/amba/axi_comp/stream_to_mem.py:Axi4streamToMem.connectRegisters"]}
{"id": "C189", "title": "Stream to memory DMA idle means that the data are written", "statement": "If the idle flag is set then the memory confirmed all bursts, so the software may read the data. (Code: write responses are ignored, idle is set when the last word is accepted.)", "quantifier": "for each execution", "why_tests_cant": "The memory model in the test answers without delay", "anchors": ["hwtLib/amba/axi_comp/stream_to_mem.py:Axi4streamToMem"]}
{"id": "C190", "title": "Stream to memory DMA bursts do not cross 4 KiB", "statement": "No write burst crosses a boundary of 4 KiB as required by AXI. (Code: it holds only for aligned base addresses.)", "quantifier": "for each configuration, base address and execution", "why_tests_cant": "Tests use an aligned base address and a memory model without the restriction", "anchors": ["hwtLib/amba/axi_comp/stream_to_mem.py:Axi4streamToMem.axiWAddrHandler"]}
{"id": "C191", "title": "AxiResize writes change the addressed bytes", "statement": "Each write of the narrow AXI-Lite bus is forwarded as one write of the wide bus, in order, which changes exactly the same bytes of the memory (those with strb, from the address aligned to the narrow word) to the same values. (Code: with an 8 bit narrow bus the number of address bits of the word is wrong and another byte is written.)", "quantifier": "for each pair of widths, each sequence of addresses and data and each timing of both channels", "why_tests_cant": "Widths are parameters, the component has no test; address and data channel are independent so all interleavings are needed", "anchors": ["hwtLib/amba/axi_comp/resize.py:AxiResize.propagate_addr", "hwtLib/amba/axi_comp/resize.py:AxiResize.connect_shifted"]}
{"id": "C192", "title": "AxiResize reads return the addressed bytes", "statement": "If the wide bus returns the words from the requested addresses then each word of the narrow bus contains the bytes of the memory from the address of its request, in order of requests; data are offered once available. (Code: wrong for an 8 bit narrow bus.)", "quantifier": "for each pair of widths, content of the memory, sequence of addresses and timing", "why_tests_cant": "Widths are parameters, the component has no test; all interleavings of requests and data are needed", "anchors": ["hwtLib/amba/axi_comp/resize.py:AxiResize.select_data_word_from_ouput_word"]}
{"id": "C193", "title": "AvalonMmBuff performs each request once", "statement": "The requests on the master side of AvalonMmBuff are the accepted requests of the slave side, each once and in order; a request is held while waitRequest is set and a stored request is offered at the latest in the next cycle.", "quantifier": "for each depth, request sequence and waitRequest pattern", "why_tests_cant": "All interleavings of requests and waits with wrapping fifo pointers", "anchors": ["hwtLib/avalon/mm_buff.py:AvalonMmBuff"]}
{"id": "C194", "title": "AvalonMmBuff loses no read data or write response", "statement": "Read data and write responses (which have no ready signal) are all delivered in order with a delay of at most two words. (Code: with DATA_BUFF_DEPTH=2 words in consecutive clock cycles are lost.)", "quantifier": "for each depth and timing of the data", "why_tests_cant": "The result depends on the depth; the component has no test", "anchors": ["hwtLib/avalon/mm_buff.py:AvalonMmBuff"]}
{"id": "C195", "title": "AvalonMmBuff delivers responses of reads", "statement": "Read data are delivered together with the response of the slave to the read. (Code: the response is stored only for writes, errors of reads are never reported.)", "quantifier": "for each configuration and execution", "why_tests_cant": "It is a statement about all executions: no read error is ever visible", "anchors": ["hwtLib/avalon/mm_buff.py:AvalonMmBuff"]}
{"id": "C196", "title": "AvalonMmBuff respects ADDR_BUFF_DEPTH", "statement": "The buffer accepts ADDR_BUFF_DEPTH requests while the slave waits (not more; one less only in the cycle in which the output register is empty). (Code: DATA_BUFF_DEPTH is used for all fifos.)", "quantifier": "for each pair of depths and execution", "why_tests_cant": "Pairs of parameters are not tested, the default values are equal", "anchors": ["hwtLib/avalon/mm_buff.py:AvalonMmBuff._mk_buff"]}
{"id": "C197", "title": "Usb2SieDeviceRx delivers each byte of each packet once and marks the last", "statement": "The byte stream after the UTMI receiver frontend consists of exactly the packets on UTMI: every valid byte while rx.active once, in order, with its error flag, and last only on the last byte of a packet. (Code: true if PHY delivers a byte in each cycle of a packet; a byte is repeated in a cycle with active=1, valid=0.)", "quantifier": "for each sequence of UTMI signals", "why_tests_cant": "Tests use PHY models which deliver a byte each clock; gaps between bytes are what a real PHY does", "anchors": ["hwtLib/peripheral/usb/usb2/sie_rx.py:Usb2SieDeviceRx._Utmi_8b_rx_to_DataErrVldStrbLast"]}
{"id": "C198", "title": "Usb2SieDeviceRx rejects packets with a wrong PID check field", "statement": "A packet whose PID check nibble is not the complement of PID is not reported as a good packet (rx_header.error: 'pid error or ...'). (Code: true for tokens, which are silently dropped; handshake and data packets are reported with error=0.)", "quantifier": "for each sequence of packets, device address and CRC function", "why_tests_cant": "An error in one of 240 PID bytes for each kind of packet; needs reasoning about all", "anchors": ["hwtLib/peripheral/usb/usb2/sie_rx.py:Usb2SieDeviceRx.hwImpl", "hwtLib/peripheral/usb/usb2/sie_interfaces.py:Usb2SieRxOut"]}
{"id": "C199", "title": "Packets received by Usb2SieDeviceRx do not influence each other", "statement": "What is reported on rx_header for a packet is a function of this packet and the device address only. (Code: true unless a token with right PID has 5 or more bytes, then the next token is lost; the exact headers for all other sequences are proved.)", "quantifier": "for each sequence of packets", "why_tests_cant": "A statement about pairs of packets and about all possible functions", "anchors": ["hwtLib/peripheral/usb/usb2/sie_rx.py:Usb2SieDeviceRx.hwImpl", "hwtLib/amba/axis_comp/frame_parser/_parser.py:Axi4S_frameParser"]}
{"id": "C200", "title": "A SOF with right CRC is reported without error by Usb2SieDeviceRx", "statement": "A start of frame token with right PID and CRC5 is reported once, with its frame number and error=0. (Code: error=1 unless the low 7 bits of the frame number are the address of the device.)", "quantifier": "for each frame number, device address and CRC function", "why_tests_cant": "2048 frame numbers x 128 addresses; the test uses frame number and address for which it holds", "anchors": ["hwtLib/peripheral/usb/usb2/sie_rx.py:Usb2SieDeviceRx.hwImpl"]}
{"id": "C201", "title": "Usb2SieDeviceRx reports tokens with missing or extra bytes", "statement": "A token which has not exactly 3 bytes is reported with error=1 ('missing/extra data'). (Code: one extra byte is reported; a token with missing bytes is not reported at all.)", "quantifier": "for each token of any length, device address and CRC function", "why_tests_cant": "All lengths and contents of packets", "anchors": ["hwtLib/peripheral/usb/usb2/sie_rx.py:Usb2SieDeviceRx.hwImpl", "hwtLib/peripheral/usb/usb2/sie_interfaces.py:Usb2SieRxOut"]}
{"id": "C202", "title": "Axi4S_frameParser delivers each field of each frame exactly once", "statement": "For a struct of fixed size, data width and any placement of fields (also across words) every consumer receives, for every frame of ceil(size/DATA_WIDTH) words, exactly one value which consists of the bits of the field in this frame; consumers may be ready in any order, a word which waits for some of them is not delivered twice to others.", "quantifier": "for each struct, data width, stream of frames and behaviour of consumers (source keeps a word until it is accepted)", "why_tests_cant": "Infinitely many layouts and ready patterns; was_consumed flags interact with part registers", "anchors": ["hwtLib/amba/axis_comp/frame_parser/_parser.py:Axi4S_frameParser.parser_fsm", "hwtLib/amba/axis_comp/frame_parser/field_connector.py:Axi4S_frameParserFieldConnector.connectPart", "hwtLib/amba/axis_comp/frame_parser/out_containers.py:OutNodeInfo"]}
{"id": "C203", "title": "Axi4S_frameParser with OVERFLOW_SUPPORT delivers the fields of frames of any length", "statement": "With OVERFLOW_SUPPORT each field contained in the frame is delivered once and the words behind the struct are skipped. (Code: true if the size of the struct is a multiple of DATA_WIDTH; otherwise fields which end in the last word are never delivered.)", "quantifier": "for each struct, data width and stream of frames of any lengths", "why_tests_cant": "Depends on the layout; tests use aligned structs only", "anchors": ["hwtLib/amba/axis_comp/frame_parser/_parser.py:Axi4S_frameParser.parser_fsm"]}
{"id": "C204", "title": "Axi4S_frameParser with UNDERFLOW_SUPPORT handles frames of any length", "statement": "With UNDERFLOW_SUPPORT (only) each field contained in a frame is delivered once and the next frame starts after last. (Code: true if no frame is longer than the struct; a longer frame is parsed again from the first field if the number of words is a power of 2, otherwise the parser stops forever.)", "quantifier": "for each struct, data width and stream of frames", "why_tests_cant": "The deadlock is a statement about all continuations", "anchors": ["hwtLib/amba/axis_comp/frame_parser/_parser.py:Axi4S_frameParser.parser_fsm"]}
{"id": "C205", "title": "Axi4S_frameParser.error_underflow marks exactly the frames which are too short", "statement": "error_underflow=1 exactly in the cycle in which the last word of a frame shorter than the struct is accepted. (Code: also for frames which are longer than an aligned struct if there is OVERFLOW_SUPPORT.)", "quantifier": "for each struct, data width and stream of frames", "why_tests_cant": "All lengths of frames and histories", "anchors": ["hwtLib/amba/axis_comp/frame_parser/_parser.py:Axi4S_frameParser.parser_fsm"]}
{"id": "C206", "title": "Consumers of Axi4S_frameParser need not be ready at the same time", "statement": "A word is accepted at latest in the cycle in which each consumer was ready at least once since the word is offered.", "quantifier": "for each history, number of consumers and order in which they get ready", "why_tests_cant": "Liveness for any number of consumers", "anchors": ["hwtLib/amba/axis_comp/frame_parser/out_containers.py:OutNodeInfo", "hwtLib/amba/axis_comp/frame_parser/word_factory.py:WordFactory"]}
{"id": "C207", "title": "Axi4S_frameDeparser sends every value of every field in its frame", "statement": "For a struct of fixed size the k-th frame on dataOut consists of the k-th values offered on the inputs of the fields, each value is consumed for exactly one frame and last is set exactly on the last word. (Code: a field which ends in a word is consumed although a field which continues to the next word is not valid; the value is lost.)", "quantifier": "for each struct, data width, values and timing of all inputs and of dataOut.ready", "why_tests_cant": "The loss depends on the order in which the values of fields come and on the position of the fields in words", "anchors": ["hwtLib/amba/axis_comp/frame_deparser/_deparser.py:Axi4S_frameDeparser.handshakeLogicForWord", "hwtLib/amba/axis_comp/frame_deparser/_deparser.py:Axi4S_frameDeparser._create_frame_build_logic"]}
{"id": "C208", "title": "Axi4S_frameDeparser is lossless if fields do not mix in words", "statement": "If no field ends in a word from which another field continues to the next word, then for any order in which the values come frame k consists of the k-th values of the fields, nothing is lost or repeated.", "quantifier": "for each such struct, data width, values and timing", "why_tests_cant": "Unbounded histories and all struct layouts", "anchors": ["hwtLib/amba/axis_comp/frame_deparser/_deparser.py:Axi4S_frameDeparser._create_frame_build_logic", "hwtLib/amba/axis_comp/frame_deparser/_deparser.py:Axi4S_frameDeparser.connectPartsOfWord"]}
{"id": "C209", "title": "Axi4S_frameDeparser.dataOut follows the AXI stream handshake", "statement": "dataOut.valid, data and last do not depend on dataOut.ready, and a word which was offered stays unchanged until it is accepted, if the sources keep their values.", "quantifier": "for each struct, state and input", "why_tests_cant": "All states and inputs", "anchors": ["hwtLib/amba/axis_comp/frame_deparser/_deparser.py:Axi4S_frameDeparser._create_frame_build_logic"]}
{"id": "C210", "title": "Axi4S_frameParser reads the values from the frames of Axi4S_frameDeparser", "statement": "The value of each field parsed from frame k of the deparser of the same struct is the k-th value which was read from the input of the field, whatever is in the padding. (Code: not if a value is lost, see C207.)", "quantifier": "for each struct, data width, values and timing", "why_tests_cant": "Round trip for all layouts of structs", "anchors": ["hwtLib/amba/axis_comp/frame_deparser/_deparser.py:Axi4S_frameDeparser._create_frame_build_logic", "hwtLib/amba/axis_comp/frame_parser/_parser.py:Axi4S_frameParser.parser_fsm"]}
{"id": "C211", "title": "Axi4Lite_to_Ipif performs each accepted request exactly once", "statement": "If the slave acknowledges only while it is selected and only the kind of the transaction, the transactions acknowledged on IPIF (kind and address) are the requests accepted on ar/aw, in order and each once, and the written data and byte enables are the words accepted on w; at most one of each is in progress.", "quantifier": "for each history, data, timing of the master and the slave", "why_tests_cant": "Interleavings of five channels and unbounded histories", "anchors": ["hwtLib/xilinx/ipif/axi4Lite_to_ipif.py:Axi4Lite_to_Ipif.mainFsm", "hwtLib/xilinx/ipif/axi4Lite_to_ipif.py:Axi4Lite_to_Ipif.handleAddr", "hwtLib/xilinx/ipif/axi4Lite_to_ipif.py:Axi4Lite_to_Ipif.hwImpl"]}
{"id": "C212", "title": "Axi4Lite_to_Ipif answers each request with the answer of the slave", "statement": "Under the same assumption the words on r (data and resp) are the read acknowledges (data and error) in order, each once, and the words on b are the write acknowledges (error) in order, each once.", "quantifier": "for each history and timing of ready", "why_tests_cant": "Interleavings and unbounded histories", "anchors": ["hwtLib/xilinx/ipif/axi4Lite_to_ipif.py:Axi4Lite_to_Ipif.handleResp", "hwtLib/xilinx/ipif/axi4Lite_to_ipif.py:Axi4Lite_to_Ipif.mainFsm", "hwtLib/xilinx/ipif/axi4Lite_to_ipif.py:Axi4Lite_to_Ipif.hwImpl"]}
{"id": "C213", "title": "Axi4Lite_to_Ipif keeps transactions and answers stable and accepts requests when idle", "statement": "A selected IPIF transaction keeps address, direction, data and byte enable until it is acknowledged; r and b keep valid and payload until they are taken; if all accepted requests were answered the bridge accepts a read, or a write if there is no read, and a read selects the slave with its address in the next cycle.", "quantifier": "for each reachable state and input", "why_tests_cant": "All reachable states", "anchors": ["hwtLib/xilinx/ipif/axi4Lite_to_ipif.py:Axi4Lite_to_Ipif.hwImpl", "hwtLib/xilinx/ipif/axi4Lite_to_ipif.py:Axi4Lite_to_Ipif.mainFsm"]}
{"id": "C214", "title": "IpifEndpoint behind Axi4Lite_to_Ipif is a sequential memory", "statement": "For requests to an array mapped to a BRAM port, each read on the AXI4Lite port returns the value which was written by the last write to the item accepted before it (or the initial one); every request but the last one accepted is answered exactly once, reads are answered two cycles after they were accepted.", "quantifier": "for each history of the five AXI channels, contents of the memory and timing", "why_tests_cant": "Composition of two FSMs and a memory with latency, unbounded histories", "anchors": ["hwtLib/xilinx/ipif/endpoint.py:IpifEndpoint.hwImpl", "hwtLib/xilinx/ipif/axi4Lite_to_ipif.py:Axi4Lite_to_Ipif.hwImpl", "hwtLib/xilinx/ipif/axi4Lite_to_ipif.py:Axi4Lite_to_Ipif.mainFsm"]}
{"id": "C215", "title": "IpifEndpoint acknowledges each access to its address space exactly once", "statement": "ip2bus_rdack (ip2bus_wrack) is 1 exactly in the cycle after a cycle with chip select, read (write) and an address of the endpoint and without acknowledge.", "quantifier": "for each history and input", "why_tests_cant": "All histories", "anchors": ["hwtLib/xilinx/ipif/endpoint.py:IpifEndpoint.hwImpl"]}
{"id": "C216", "title": "Every accepted read of Axi4Lite_to_Ipif with IpifEndpoint is answered", "statement": "Each read which was accepted is answered in bounded time if r.ready=1. (Code: a read outside of the address space of the endpoint is never acknowledged and the bridge is blocked forever.)", "quantifier": "for each address, state and history", "why_tests_cant": "Liveness", "anchors": ["hwtLib/xilinx/ipif/endpoint.py:IpifEndpoint.hwImpl", "hwtLib/xilinx/ipif/axi4Lite_to_ipif.py:Axi4Lite_to_Ipif.mainFsm"]}
{"id": "C217", "title": "AxiCacheTagArray lookup reflects all updates", "statement": "A result of a lookup has found=1 exactly if some way holds the line of the address after all updates before the cycle of the result (including updates of the same set made in the cycle of the lookup or while the result waits), and way is the first such way.", "quantifier": "for each history of updates and lookups, stalls, and any value returned by the memory for a record which is written in the same cycle", "why_tests_cant": "Write/read collisions with all timings of stalls", "anchors": ["hwtLib/amba/axi_comp/cache/tag_array.py:AxiCacheTagArray.connect_lookup_port", "hwtLib/amba/axi_comp/cache/tag_array.py:AxiCacheTagArray.connect_update_port"]}
{"id": "C218", "title": "AxiCacheTagArray answers each lookup once", "statement": "Each accepted lookup gets exactly one result, in order, with its address and id, available in the cycle after the lookup and stable until taken; a lookup is accepted whenever no result waits or the waiting result is taken.", "quantifier": "for each history and timing", "why_tests_cant": "Unbounded histories", "anchors": ["hwtLib/amba/axi_comp/cache/tag_array.py:AxiCacheTagArray.connect_lookup_port"]}
{"id": "C219", "title": "Tags in the result of AxiCacheTagArray are the records of the set", "statement": "lookupRes.tags are the records of the set after all updates before the cycle of the result (the cache uses them to find an empty way and the address of the victim). (Code: false if the set was updated in the previous cycle, only found and way are forwarded.)", "quantifier": "for each history of updates and lookups", "why_tests_cant": "Depends on exact collision of update and lookup", "anchors": ["hwtLib/amba/axi_comp/cache/tag_array.py:AxiCacheTagArray.connect_lookup_port"]}
{"id": "C220", "title": "Write-allocate cache loses and duplicates no line", "statement": "When a write is sent to the data array to a place with another line then this line is flushed under its own address; nothing else is flushed; and a line which is in the cache is written to the place where it is. (Code: two writes of different lines of one set which follow each other get the same empty way and the first line is lost.)", "quantifier": "for each history of writes, timing of the data array and victims", "why_tests_cant": "Pipeline hazards for any history of addresses", "anchors": ["hwtLib/amba/axi_comp/cache/cacheWriteAllocWawOnlyWritePropagating.py:AxiCacheWriteAllocWawOnlyWritePropagating.write_handler", "hwtLib/amba/axi_comp/cache/cacheWriteAllocWawOnlyWritePropagating.py:AxiCacheWriteAllocWawOnlyWritePropagating.resolve_victim", "hwtLib/amba/axi_comp/cache/tag_array.py:AxiCacheTagArray.connect_lookup_port"]}
{"id": "C221", "title": "Victim from LRU is there exactly for the write which needs it", "statement": "victim_data is valid exactly when the write in the second stage needs a victim, it is consumed together with this write, and the tags are updated exactly when the data array takes the transaction (tag_update.vld itself does not look at victim_data.vld).", "quantifier": "for each history and timing", "why_tests_cant": "Invariant of two pipelines which are synchronised only by handshakes", "anchors": ["hwtLib/amba/axi_comp/cache/cacheWriteAllocWawOnlyWritePropagating.py:AxiCacheWriteAllocWawOnlyWritePropagating.write_handler", "hwtLib/amba/axi_comp/cache/lru_array.py:AxiCacheLruArray.hwImpl"]}
{"id": "C222", "title": "Each write accepted by the cache makes one transaction to the data array", "statement": "Transactions on data_array.w.addr have sets and ids of accepted writes, each exactly once, in order, at most two are in the pipeline.", "quantifier": "for each history, timing and LRU array", "why_tests_cant": "Unbounded histories", "anchors": ["hwtLib/amba/axi_comp/cache/cacheWriteAllocWawOnlyWritePropagating.py:AxiCacheWriteAllocWawOnlyWritePropagating.write_handler"]}
{"id": "C223", "title": "AxiBuff passes each item of each channel once and in order", "statement": "For each of ar, aw, w, r, b: items accepted on one side are items issued on the other side, in order, followed by at most depth (ADDR_BUFF_DEPTH for ar, aw, b, DATA_BUFF_DEPTH for w, r) items in the buffer; also for depths of 0 (wire), 1, 2 (registers) and more (FIFO).", "quantifier": "for all depths, histories and handshakes", "why_tests_cant": "All histories of five channels and all depths", "anchors": ["hwtLib/amba/axi_comp/buff.py:AxiBuff.hwImpl", "hwtLib/abstract/streamBuilder.py:AbstractStreamBuilder.buff"]}
{"id": "C224", "title": "Outputs of AxiBuff are stable until they are taken", "statement": "With nonzero depths an item which is valid on an output stays valid and unchanged until it is taken, even if the source does not keep its own signals stable.", "quantifier": "for all depths from 1, histories and handshakes", "why_tests_cant": "Any behaviour of the source in any state", "anchors": ["hwtLib/amba/axi_comp/buff.py:AxiBuff.hwImpl", "hwtLib/abstract/streamBuilder.py:AbstractStreamBuilder.buff"]}
{"id": "C225", "title": "Mi32Buff issues each request once and delays read data by a constant", "statement": "Each accepted request is issued exactly once, in order, at most ADDR_BUFF_DEPTH are inside; read data on s are read data on m exactly DATA_BUFF_DEPTH cycles before, without a gap and invalid after the reset.", "quantifier": "for all depths and histories", "why_tests_cant": "All depths and all interleavings of requests and answers", "anchors": ["hwtLib/cesnet/mi32/buff.py:Mi32Buff.hwImpl"]}
{"id": "C226", "title": "MI32 interconnect routes each request to the slave of its address only", "statement": "For a slave configuration accepted by the normalisation (slaves of at least 2 addresses), a request in the region of a slave is taken from the master exactly when this slave takes it, with the address relative to the slave and unchanged data; no other slave sees it; a request outside of all regions is never accepted.", "quantifier": "for each configuration, address, state and timing", "why_tests_cant": "All memory maps and addresses", "anchors": ["hwtLib/cesnet/mi32/interconnectMatrix.py:Mi32InterconnectMatrix.hwImpl", "hwtLib/abstract/busInterconnect.py:BusInterconnect._normalize_slave_configs"]}
{"id": "C227", "title": "MI32 interconnect answers reads in order with data of the right slave", "statement": "The k-th answer to the master is the answer of the slave to which the k-th read was sent, to this read. (Code: drdy is set when the order FIFO has an item, not when the data is there; correct only if each slave answers exactly one cycle after the acceptance of the read.)", "quantifier": "for each configuration, history and timing of slaves", "why_tests_cant": "Any latency of slaves and interleaving of reads", "anchors": ["hwtLib/cesnet/mi32/interconnectMatrix.py:Mi32InterconnectMatrix.hwImpl"]}
{"id": "C228", "title": "Sliding window translates each access by the offset written last", "statement": "Accesses accepted on s appear on m exactly once and in order at (last offset written before + address) modulo the address space of m; writes of the offset do not appear on m and are accepted immediately; read data are passed.", "quantifier": "for each history and parameters", "why_tests_cant": "All histories of accesses and offsets", "anchors": ["hwtLib/cesnet/mi32/sliding_window.py:Mi32SlidingWindow.hwImpl"]}
{"id": "C229", "title": "Whole address space is reachable through the sliding window", "statement": "Each address of m can be accessed by some write of the offset followed by an access in the window. (Code: the offset has DATA_WIDTH bits, so it holds exactly if 2^M_ADDR_WIDTH <= 2^DATA_WIDTH + WINDOW_SIZE - 1; not for the default parameters.)", "quantifier": "for each configuration and address", "why_tests_cant": "Exact condition over all parameters and all addresses", "anchors": ["hwtLib/cesnet/mi32/sliding_window.py:Mi32SlidingWindow.hwConfig", "hwtLib/cesnet/mi32/sliding_window.py:Mi32SlidingWindow.hwImpl"]}
{"id": "C230", "title": "IpifBuff does each transaction exactly once with its own response", "statement": "If the master holds a request until it is acknowledged and the slave acknowledges only when it is selected, the transactions finished on s (request and response) are the transactions finished on m, in order, at most one is on its way back. (Code: response registers have no reset value, a transaction started in the first cycle after reset may be acknowledged by their power-up value.)", "quantifier": "for each history, latency of the slave and power-up values", "why_tests_cant": "Arbitrary latency of the slave and back-to-back transactions", "anchors": ["hwtLib/xilinx/ipif/buff.py:IpifBuff.hwImpl", "hwtLib/xilinx/ipif/buff.py:IpifBuff.connectRegistered"]}
{"id": "C231", "title": "Latency of IpifBuff and the gap between transactions", "statement": "A request appears on m one cycle after it was on s, a response appears on s one cycle after m, and the slave is deselected in this and in the following cycle.", "quantifier": "for each state and inputs", "why_tests_cant": "All states", "anchors": ["hwtLib/xilinx/ipif/buff.py:IpifBuff.hwImpl"]}
{"id": "C232", "title": "IPIF interconnect selects only the slave of the address", "statement": "For a slave configuration accepted by the normalisation (slaves of at least 2 addresses) the request is visible only to the slave with the address, relative to its beginning; acknowledge, error and data come only from this slave whatever the others drive; an address outside of all regions selects nothing and is never acknowledged.", "quantifier": "for each configuration, address and outputs of slaves", "why_tests_cant": "All memory maps, addresses and slave outputs", "anchors": ["hwtLib/xilinx/ipif/interconnectMatrix.py:IpifInterconnectMatrix.hwImpl", "hwtLib/abstract/busInterconnect.py:BusInterconnect._normalize_slave_configs"]}
{"id": "C233", "title": "AvalonMmEndpoint behaves as memory with latency of one cycle", "statement": "Each request is accepted immediately; a read is answered in the next cycle by the last value written to the place of its address before the read (registers and items of arrays); a write is confirmed in the next cycle; the response is OKAY exactly for addresses of the endpoint; there are no other responses.", "quantifier": "for each memory map with disjoint places, history of accesses and initial content", "why_tests_cant": "All histories and memory maps", "anchors": ["hwtLib/avalon/endpoint.py:AvalonMmEndpoint.hwImpl", "hwtLib/abstract/busEndpoint.py:BusEndpoint.connect_directly_mapped_read", "hwtLib/abstract/busEndpoint.py:BusEndpoint.connect_directly_mapped_write"]}
{"id": "C234", "title": "BramPortEndpoint output holds the data of the last read", "statement": "After a read the output is the last value written to the place of the address and it stays there until the next access with en=1, as for a memory. (Code: readBramIndx is loaded in each cycle, the output changes with the address even if en=0.)", "quantifier": "for each memory map, history and initial content", "why_tests_cant": "All histories and memory maps", "anchors": ["hwtLib/mem/bramPortEndpoint.py:BramPortEndpoint.hwImpl"]}
{"id": "C235", "title": "LRU array answers each victim request exactly once", "statement": "The number of accepted victim requests is the number of victims taken plus at most one pending request, also if they are interrupted by writes on the set port.", "quantifier": "for each history and timing", "why_tests_cant": "Unbounded histories", "anchors": ["hwtLib/amba/axi_comp/cache/lru_array.py:AxiCacheLruArray.hwImpl"]}
{"id": "C236", "title": "Victim from the LRU array is the victim of the requested set", "statement": "The k-th victim is selected by the LRU record of the set of the k-th request. (Code: the read port of the memory is enabled by victim_req.vld without ready, so a waiting request overwrites the record of the pending one.)", "quantifier": "for each history, timing and content of the memory", "why_tests_cant": "Hazard on stalls, any history", "anchors": ["hwtLib/amba/axi_comp/cache/lru_array.py:AxiCacheLruArray.hwImpl"]}
{"id": "C237", "title": "Ports of the LRU array never write the same set in the same cycle", "statement": "Write-backs of colliding ports are merged into one of them, all enabled writes of a cycle have distinct addresses.", "quantifier": "for each state, inputs and number of ports", "why_tests_cant": "All numbers of ports and all collisions", "anchors": ["hwtLib/amba/axi_comp/cache/lru_array.py:AxiCacheLruArray.hwImpl", "hwtLib/amba/axi_comp/cache/lru_array.py:AxiCacheLruArray.merge_successor_writes_into_incr_one_hot"]}
{"id": "C238", "title": "LRU array marks exactly the ways which were used", "statement": "In the cycle after increments were accepted the ways marked in each set are exactly the ways of these increments and the pending victim, none is lost in merging. (Code: the way of the current cycle is used, not the registered one.)", "quantifier": "for each state, inputs and number of ports", "why_tests_cant": "All collisions of any number of ports", "anchors": ["hwtLib/amba/axi_comp/cache/lru_array.py:AxiCacheLruArray.hwImpl", "hwtLib/amba/axi_comp/cache/lru_array.py:AxiCacheLruArray.merge_successor_writes_into_incr_one_hot"]}
{"id": "C239", "title": "SIE transmit converter turns the last flag into a gap", "statement": "If valid of the AXI-stream does not drop in the middle of a packet (documented), the packets seen on the UTMI tx port (runs of vld sampled with rd, closed by a cycle without vld) are exactly the packets of the AXI-stream, in order and with the same bytes; only the last one can still wait for its gap.", "quantifier": "for each sequence of stream words and each timing of tx.rd", "why_tests_cant": "Back-pressure can meet the end of the packet in any cycle, unbounded histories", "anchors": ["hwtLib/peripheral/usb/usb2/sie_tx.py:Usb2SieDeviceTx._Axi4Stream_to_Utmi_8b_tx"]}
{"id": "C240", "title": "ULPI data wires are driven exactly while the LINK owns the bus", "statement": "Utmi_to_Ulpi enables its tristate drivers in each cycle in which the LINK owns the bus and never while the PHY owns it or in a turnaround cycle.", "quantifier": "for each history of ULPI and UTMI signals", "why_tests_cant": "The test keeps nxt high and never changes the control registers, the driver enable is not observed by data checks", "anchors": ["hwtLib/peripheral/usb/usb2/utmi_to_ulpi.py:Utmi_to_Ulpi.hwImpl", "hwtLib/peripheral/usb/usb2/ulpi_agent.py:UlpiAgent"]}
{"id": "C241", "title": "Packets from UTMI reach the PHY unchanged", "statement": "The transmit packets which the PHY receives from Utmi_to_Ulpi (bytes taken with nxt, closed by stp) are the packets sent by the user on UTMI, in order, with the pid in the transmit command, whatever register updates and receptions happen in between.", "quantifier": "for each history, timing of nxt and of the takeover of the bus by the PHY", "why_tests_cant": "The PHY can take the bus at any moment, also in the middle of a packet", "anchors": ["hwtLib/peripheral/usb/usb2/utmi_to_ulpi.py:Utmi_to_Ulpi.hwImpl"]}
{"id": "C242", "title": "Control registers of the PHY follow the UTMI control inputs", "statement": "Whenever the adapter is ready to accept a packet, the Function Control and OTG Control registers of the PHY have the values of the UTMI control inputs.", "quantifier": "for each history of control inputs, packets and bus takeovers", "why_tests_cant": "Depends on the cycle in which an input changes relative to the register write", "anchors": ["hwtLib/peripheral/usb/usb2/utmi_to_ulpi.py:Utmi_to_Ulpi.hwImpl"]}
{"id": "C243", "title": "Bytes received on ULPI appear exactly once on UTMI", "statement": "utmi.rx shows a byte exactly in the cycle after the PHY, which already owned the bus, sent it with nxt; active is set with each byte and never outlives the ownership of the bus by the PHY.", "quantifier": "for each history of ULPI", "why_tests_cant": "All interleavings of RX CMD, data, turnaround and transmit state", "anchors": ["hwtLib/peripheral/usb/usb2/utmi_to_ulpi.py:Utmi_to_Ulpi.hwImpl"]}
{"id": "C244", "title": "Status flags reflect the last RX CMD", "statement": "After each RX CMD byte the line state, the interrupts (HostDisconnect, VbusValid, SessValid, SessEnd, IdGnd) and the receive status are those encoded in that byte; flags are cleared when the new RX CMD does not contain the event.", "quantifier": "for each history of ULPI", "why_tests_cant": "The flags have memory, a stale flag needs a specific sequence of RX CMD", "anchors": ["hwtLib/peripheral/usb/usb2/utmi_to_ulpi.py:Utmi_to_Ulpi.parse_RX_CMD"]}
{"id": "C245", "title": "Chirp ends when it is deasserted", "statement": "Usb2SieDeviceTx sends zeros while the user requests a chirp and returns to packets after the user stops requesting it.", "quantifier": "for each history and behaviour of the rest of the component", "why_tests_cant": "The test has no chirp; that the state is left for no future input is a statement about all continuations", "anchors": ["hwtLib/peripheral/usb/usb2/sie_tx.py:Usb2SieDeviceTx.hwImpl"]}
{"id": "C246", "title": "Cuckoo hash table is a map", "statement": "After clean the CuckooHashTableWithRam behaves as a map: every lookup is answered exactly once and in order by found/data which were stored under the key when the lookup was accepted; an insert stores the item (replacing the old value of the key) and its result tells exactly whether an item was removed because of it and which key and data it had; other items are never changed by evictions; delete of a stored key removes only this key.", "quantifier": "for all numbers of tables, hash functions, keys, data, sequences of commands and timings of all ports (items per table a power of two, only stored keys deleted)", "why_tests_cant": "Evictions between tables, overlapped lookups and commands, any hash collisions - the test uses one sequence with one CRC.", "anchors": ["hwtLib/mem/cuckooHashTable.py:CuckooHashTable.hwImpl", "hwtLib/mem/cuckooHashTable.py:CuckooHashTable.tables_lookupRes_resolver", "hwtLib/mem/cuckooHashTable.py:CuckooHashTable.stash_load", "hwtLib/mem/hashTableCore.py:HashTableCore.lookupLogic", "hwtLib/mem/cuckooHashTablWithRam.py:CuckooHashTableWithRam"]}
{"id": "C247", "title": "Delete of a missing key is harmless", "statement": "A delete of a key which is not stored in the cuckoo hash table does not change the content of the table.", "quantifier": "for all histories of commands", "why_tests_cant": "Requires a missing key whose places in all tables are occupied", "anchors": ["hwtLib/mem/cuckooHashTable.py:CuckooHashTable.tables_lookupRes_resolver", "hwtLib/mem/cuckooHashTable.py:CuckooHashTable.tables_insert_driver"]}
{"id": "C248", "title": "Clean empties the cuckoo hash table", "statement": "After the clean command no lookup finds anything until an insert, whatever was in the memories.", "quantifier": "for all configurations and contents of memories", "why_tests_cant": "Depends on garbage after power-up in places which are addressed only by some hashes", "anchors": ["hwtLib/mem/cuckooHashTable.py:CuckooHashTable.clean_addr_iterator", "hwtLib/mem/hashTableCoreWithRam.py:HashTableCoreWithRam.hwDeclr"]}
{"id": "C249", "title": "Each command of the cuckoo hash table finishes", "statement": "The table is idle again after at most 4*MAX_REINSERT + items + 1 clock cycles in which the tables and the receiver of insertRes do not wait, for any cycles in the eviction graph.", "quantifier": "for all reachable states and hash functions", "why_tests_cant": "Cycles of evictions depend on hashes of all stored keys", "anchors": ["hwtLib/mem/cuckooHashTable.py:CuckooHashTable.hwImpl"]}
{"id": "C250", "title": "lookupRes.key is the searched key", "statement": "The key in the result of a lookup is the key which was searched for (documentation of HwIOLookupResult).", "quantifier": "for all histories", "why_tests_cant": "Differs only if the key is not found and its place has another item", "anchors": ["hwtLib/mem/hashTable_intf.py:HwIOLookupResult", "hwtLib/mem/hashTableCore.py:HashTableCore.lookupLogic", "hwtLib/mem/cuckooHashTable.py:CuckooHashTable.lookupRes_driver"]}
{"id": "C251", "title": "Idle cuckoo hash table accepts lookups", "statement": "A lookup is accepted if the table is idle, there is no command of a higher priority and fewer than MAX_LOOKUP_OVERLAP lookups are in progress.", "quantifier": "for all configurations and histories", "why_tests_cant": "That a lookup is never accepted is a statement about all continuations", "anchors": ["hwtLib/mem/cuckooHashTable.py:CuckooHashTable.stash_load", "hwtLib/mem/cuckooHashTable.py:CuckooHashTable.lookup_trans_cntr"]}
{"id": "C252", "title": "Items of OutOfOrderCummulativeOp are written once and in order", "statement": "Every item received with read data is written back exactly once, in the order in which the read data came; dataOut shows exactly the written items (address, transaction state, data) in the same order, one with each write response.", "quantifier": "for all configurations, operations, addresses and timings of all channels", "why_tests_cant": "Any pattern of stalls of aw/w/b/dataOut with any occupancy of the pipeline", "anchors": ["hwtLib/amba/axi_comp/oooOp/outOfOrderCummulativeOp.py:OutOfOrderCummulativeOp.main_pipeline", "hwtLib/amba/axi_comp/oooOp/utils.py:OOOOpPipelineStage"]}
{"id": "C253", "title": "OutOfOrderCummulativeOp loses no update", "statement": "Each written value is the operation applied on the value of the address after all the previous writes, although reads and writes of the same address overlap (the documented coherency by write forwarding and write history), for a memory which returns with the read data all the writes acknowledged before.", "quantifier": "for all operations, initial memories, sequences of addresses and timings of channels", "why_tests_cant": "A race which depends on exact clock cycles of stalls, collisions of addresses and reads with old data", "anchors": ["hwtLib/amba/axi_comp/oooOp/outOfOrderCummulativeOp.py:OutOfOrderCummulativeOp", "hwtLib/amba/axi_comp/oooOp/outOfOrderCummulativeOp.py:OutOfOrderCummulativeOp.apply_data_write_forwarding", "hwtLib/amba/axi_comp/oooOp/outOfOrderCummulativeOp.py:OutOfOrderCummulativeOp.collision_detector", "hwtLib/amba/axi_comp/oooOp/utils.py:OutOfOrderCummulativeOpPipelineConfig.new_config", "hwtLib/examples/axi/oooOp/counterArray.py:OooOpExampleCounterArray"]}
{"id": "C254", "title": "OutOfOrderCummulativeOp finishes every item", "statement": "After any history, WRITE_TO_WRITE_ACK_LATENCY + 4 clock cycles in which aw, w, b and dataOut do not wait are enough to write, acknowledge and output every received item.", "quantifier": "for all configurations, histories", "why_tests_cant": "Quantifies over all reachable states", "anchors": ["hwtLib/amba/axi_comp/oooOp/outOfOrderCummulativeOp.py:OutOfOrderCummulativeOp.main_pipeline"]}
{"id": "C255", "title": "aw.valid and w.valid do not wait for ready", "statement": "The write channels of OutOfOrderCummulativeOp follow the AXI4 rule that valid is not conditioned by ready: an item is written also to a slave which raises awready/wready only after it saw awvalid/wvalid.", "quantifier": "for all histories with such a slave", "why_tests_cant": "A deadlock is a statement about infinitely many continuations; the simulation agents are always ready first", "anchors": ["hwtLib/amba/axi_comp/oooOp/outOfOrderCummulativeOp.py:OutOfOrderCummulativeOp.main_pipeline", "hwtLib/handshaked/streamNode.py:StreamNode"]}
{"id": "C256", "title": "Read aggregator answers only pending requests with data of their line", "statement": "AxiReadAggregator (one bus word per cache line): each answer on s.r belongs to a request which was accepted on s.ar with this id and not yet answered, and it carries a word which was received on m.r for the cache line of this request. A request is accepted on s.ar only if its id is not used by an unanswered request.", "quantifier": "All id widths, all sequences of inputs in which m.r answers only reads sent on m.ar", "why_tests_cant": "Depends on chains of merged requests over unbounded executions with arbitrary back pressure on all four channels", "anchors": ["hwtLib/amba/axi_comp/lsu/read_aggregator.py:100-220", "hwtLib/amba/axis_comp/fifoCopy.py:34-57"]}
{"id": "C257", "title": "Read aggregator never reads a line twice at once", "statement": "AxiReadAggregator: a read is offered on m.ar only for an accepted request with no read in progress and only if no other unanswered request for the same cache line exists. There are never two reads of one line in progress.", "quantifier": "All id widths, all executions", "why_tests_cant": "The comparison has to cover requests in the CAM, the request which is just being inserted to the CAM, and the chain of requests which wait on each other", "anchors": ["hwtLib/amba/axi_comp/lsu/read_aggregator.py:100-220"]}
{"id": "C258", "title": "Read aggregator does not lose requests", "statement": "AxiReadAggregator: if there is an accepted request without an answer then a read is in progress on m, or a read is offered on m.ar, or an answer is offered on s.r. An offered read/answer is kept without change until it is accepted.", "quantifier": "All id widths, all executions", "why_tests_cant": "A lost wake-up of a merged request shows up only for a specific overlap of the end of its parent and the insert", "anchors": ["hwtLib/amba/axi_comp/lsu/read_aggregator.py:140-220"]}
{"id": "C259", "title": "Data from the read aggregator are newer than the request", "statement": "AxiReadAggregator: the data of an answer were received on m.r after the request was accepted on s.ar (a read which is issued after the completion of a write gets the written data). This fails: a request which is accepted while the answer of an older request for the same line waits on s.r gets a copy of the old data. It holds relative to each moment in which no request for the line was in progress.", "quantifier": "All executions", "why_tests_cant": "Requires a slow s.r and a request in a specific window", "anchors": ["hwtLib/amba/axi_comp/lsu/read_aggregator.py:186-217"]}
{"id": "C260", "title": "Read aggregator takes answers of the memory in a bounded time", "statement": "AxiReadAggregator: if the memory offers an answer on m.r and s.r, m.ar are always ready then the answer is taken in a bounded number of clock cycles. This fails: a stream of requests for one line is served for an unbounded time by copies of one word and m.r is not ready all this time. It holds if there are no new requests: at most 2**ID_WIDTH + 1 clock cycles.", "quantifier": "All executions of any length", "why_tests_cant": "Starvation is a property of infinite executions", "anchors": ["hwtLib/amba/axi_comp/lsu/read_aggregator.py:186-217", "hwtLib/amba/axis_comp/fifoCopy.py:34-57"]}
{"id": "C261", "title": "AXI stream frames made from bytes are received as the same bytes", "statement": "A sequence of frames queued by axi4s_send_bytes (with the keep/strb signal, non-empty data, offset smaller than the number of bytes in the word) is read by the same number of calls of axi4s_recieve_bytes as the same bytes and offsets, each call consumes exactly the words of its frame.", "quantifier": "All word widths, data, offsets and sequences of frames", "why_tests_cant": "Unbounded data and combinations of offset and length relative to the width", "anchors": ["hwtLib/amba/axi4s.py:packAxi4SFrame", "hwtLib/amba/axi4s.py:_axi4s_send_bytes", "hwtLib/amba/axi4s.py:_axi4s_recieve_bytes"]}
{"id": "C262", "title": "axi4s_send_bytes with any offset is received", "statement": "Whatever data and offset are passed to axi4s_send_bytes, axi4s_recieve_bytes returns them. This fails: an offset of one or more words is always rejected by an AssertionError of the receiver, and the offset of an empty frame is lost.", "quantifier": "All widths, data and offsets", "why_tests_cant": "Depends on the relation of the offset to the width", "anchors": ["hwtLib/amba/axi4s.py:_axi4s_send_bytes", "hwtLib/amba/axi4s.py:_axi4s_recieve_bytes"]}
{"id": "C263", "title": "axi4s_recieve_bytes accepts only contiguous frames", "statement": "The frame accepted by axi4s_recieve_bytes ends with the first word with last, has one id, its bytes are the marked bytes in order, all words between the first and the last are full and offset is the position of the first marked byte; the marked bytes are contiguous. The last part fails: holes in the first and the last word are not detected although the function asserts contents of keep.", "quantifier": "All sequences of words", "why_tests_cant": "All possible keep masks in all words", "anchors": ["hwtLib/amba/axi4s.py:_axi4s_recieve_bytes"]}
{"id": "C264", "title": "Frames without keep", "statement": "On an interface without keep and strb a non-empty frame made of full words without an offset is received unchanged, a frame which does not fill its words or has an offset is never received.", "quantifier": "All widths, data and offsets", "why_tests_cant": "Unbounded lengths", "anchors": ["hwtLib/amba/axi4s.py:packAxi4SFrame", "hwtLib/amba/axi4s.py:_axi4s_recieve_bytes"]}
{"id": "C265", "title": "Byte enables of the simulation memories change only enabled bytes", "statement": "A masked write of a word to Axi4SimRam or AvalonMmSimRam sets the bits of the enabled bytes (value and validity) and keeps all other bits of the word as they were, for any content of the word.", "quantifier": "all cell contents (missing, python int, partially valid vector), data, strobes and word widths", "why_tests_cant": "The word has 2^n contents and masks; a test which initializes the memory with one kind of values does not see that other kinds are damaged.", "anchors": ["hwtLib/amba/axi_comp/sim/ram.py:153-179", "hwtLib/avalon/sim/ram.py:133-160"]}
{"id": "C266", "title": "Simulation memories behave as memory for any sequence of bursts", "statement": "After any sequence of aligned burst writes and reads the memory contains what was written last in each byte and each read returns these words in order, the last flag is set only on the last word.", "quantifier": "all sequences of transactions with any length of bursts, all initial contents", "why_tests_cant": "Sequences and bursts are unbounded.", "anchors": ["hwtLib/amba/axi_comp/sim/ram.py:100-207", "hwtLib/avalon/sim/ram.py:89-181"]}
{"id": "C267", "title": "Unaligned read from the simulation memories returns bytes from the address", "statement": "With allow_unaligned_addr a read from an unaligned address returns the upper bytes of the first word followed by the lower bytes of the next word.", "quantifier": "all offsets, word widths and contents", "why_tests_cant": "A test with a zero next word can not see that it is ignored.", "anchors": ["hwtLib/amba/axi_comp/sim/ram.py:100-142", "hwtLib/avalon/sim/ram.py:89-128"]}
{"id": "C268", "title": "Unaligned write to the simulation memories writes bytes from the address", "statement": "With allow_unaligned_addr a write to an unaligned address changes exactly the bytes from this address: the lower bytes of data are in the upper part of the first word and the upper bytes of data in the lower part of the next word.", "quantifier": "all offsets, word widths, data and contents", "why_tests_cant": "Depends on all bits of data and on all offsets.", "anchors": ["hwtLib/amba/axi_comp/sim/ram.py:181-207", "hwtLib/avalon/sim/ram.py:162-181"]}
{"id": "C269", "title": "Axi4SFifoCopy repeats exactly the required frames", "statement": "The output of Axi4SFifoCopy offers exactly the accepted words in order; if dataOut_copy_frame is set when the last word of a frame is taken, the whole frame is offered again with the replacement id (also repeatedly), otherwise the next frame follows with its own id. A word which is stored is offered at the latest in the next cycle and words are accepted iff less than DEPTH-2 words are stored from the start of the frame on the output.", "quantifier": "all sequences of writes, reads, copies and ids, all depths, all power up contents of the memory", "why_tests_cant": "Unbounded sequences of frames and copies with all interleavings of both sides.", "anchors": ["hwtLib/amba/axis_comp/fifoCopy.py:63-145", "hwtLib/mem/fifoCopy.py:48-134"]}
{"id": "C270", "title": "Axi4SFifoCopy can transfer frames shorter than DEPTH", "statement": "A frame with less than DEPTH words (documented limit) is transferred, the component does not block in the middle of it.", "quantifier": "all depths, all frame lengths, all behaviours of the consumer", "why_tests_cant": "Blocking is a property of infinite executions and shows only for the border length.", "anchors": ["hwtLib/amba/axis_comp/fifoCopy.py:63-90", "hwtLib/mem/fifoCopy.py:96-134"]}
{"id": "C271", "title": "Axi4SRegCopy is the same thing as Axi4SFifoCopy for frames of one word", "statement": "The register offers the same frames with the same ids as Axi4SFifoCopy.", "quantifier": "all sequences of inputs", "why_tests_cant": "Unbounded sequences of inputs; the difference is in a combination of control signals while the output is empty.", "anchors": ["hwtLib/amba/axis_comp/fifoCopy.py:21-60"]}
{"id": "C272", "title": "Axi4SFifoDrop delivers exactly complete frames which were not discarded", "statement": "Words on the output are the words of complete frames which were not discarded, in order, without loss and duplication; a stored complete frame is offered; a word is accepted iff less than DEPTH-1 words are stored in the memory.", "quantifier": "all sequences of frames, discards and reads, all depths", "why_tests_cant": "Unbounded sequences; depends on coincidence of the discard with the wrap of the read pointer.", "anchors": ["hwtLib/amba/axis_comp/fifoDrop.py:17-50", "hwtLib/mem/fifoDrop.py:94-233", "hwtLib/handshaked/fifo.py:52-124"]}
{"id": "C273", "title": "size of Axi4SFifoDrop is the number of stored words", "statement": "The size output is the number of words which are stored (complete frames and the frame which is being written), also after discards.", "quantifier": "all sequences of frames, discards and reads, all depths", "why_tests_cant": "The error is permanent and depends on the position of the discard in the frame.", "anchors": ["hwtLib/amba/axis_comp/fifoDrop.py:17-50", "hwtLib/mem/fifoDrop.py:94-233", "hwtLib/handshaked/fifo.py:52-124", "hwtLib/mem/fifoDrop.py:198-223"]}
{"id": "C274", "title": "USB endpoint rx buffers deliver exactly good packets of the endpoint", "statement": "An endpoint of UsbDeviceEpBuffers with an rx buffer is offered exactly the words of packets which are addressed to it and which have no error on their last word, in order and completely, whatever packets (good or bad) come for other endpoints and whatever the endpoint does with ready; an empty buffer accepts words.", "quantifier": "all sets of endpoints, buffer sizes >= 2, all packets, errors, stalls of the core, ready of all endpoints, power-up memory contents", "why_tests_cant": "The discard input of all fifos is shared, so the effect depends on the relative phase of a bad packet for one endpoint and the read pointer of an other one; tests use one endpoint and no errors.", "anchors": ["hwtLib/peripheral/usb/usb2/device_ep_buffers.py:44-82", "hwtLib/peripheral/usb/usb2/device_ep_buffers.py:136-158", "hwtLib/amba/axis_comp/fifoDrop.py:16-50"]}
{"id": "C275", "title": "USB endpoint buffers for an endpoint which does not exist", "statement": "For an endpoint number which has no rx (tx) the stall is set; a received word is accepted and not offered to any endpoint; transmitted data are not valid if there are none.", "quantifier": "all endpoint sets, endpoint numbers, states", "why_tests_cant": "Tests address only existing endpoints.", "anchors": ["hwtLib/peripheral/usb/usb2/device_ep_buffers.py:44-82", "hwtLib/peripheral/usb/usb2/device_ep_buffers.py:102-134"]}
{"id": "C276", "title": "USB endpoint tx buffers send only completely buffered packets without gaps", "statement": "The host gets exactly the words written by the endpoint, in order; a word is offered only if the whole rest of its packet up to the last word is already in the buffer, so there is no gap in the packet; a completely stored packet is offered at the latest in the second cycle in which its endpoint is selected.", "quantifier": "all endpoint sets, buffer sizes >= 3, all schedules of writes, endpoint selection and ready", "why_tests_cant": "Absence of a gap depends on every interleaving of writes to the buffer, selection of endpoints and ready.", "anchors": ["hwtLib/peripheral/usb/usb2/device_ep_buffers.py:84-134", "hwtLib/peripheral/usb/usb2/device_ep_buffers.py:160-176"]}
{"id": "C277", "title": "USB endpoint tx buffer accepts a packet of its size", "statement": "A packet which is not longer than the buffer of the endpoint can be written to it and sent.", "quantifier": "all endpoint sets, buffer sizes, packets and schedules", "why_tests_cant": "A test would need a packet of the exact size of the buffer; the deadlock is for ever and an absence of progress is not visible in a bounded run.", "anchors": ["hwtLib/peripheral/usb/usb2/device_ep_buffers.py:84-134", "hwtLib/peripheral/usb/usb2/device_ep_buffers.py:160-176", "hwtLib/mem/fifoCopy.py:100-140"]}
{"id": "C278", "title": "USB reset detector", "statement": "usb_rst of Usb2DeviceCore is set in a clock cycle exactly if the line state was SE0 in each of the last 2^14 clock cycles.", "quantifier": "all line state histories, all clock frequencies and all PRE_NEGOTIATED_TO", "why_tests_cant": "Needs 16384 cycles of history and every place of an interruption; tests bypass it.", "anchors": ["hwtLib/peripheral/usb/usb2/device_core.py:82-96"]}
{"id": "C279", "title": "USB device chirp only after SE0", "statement": "Usb2DeviceCore starts its chirp K only if the line was SE0 in each of the last ATTACH_FS_TIME + 1 clock cycles.", "quantifier": "all histories of line state, all clock frequencies", "why_tests_cant": "The negotiation takes milliseconds (hundreds of thousands of cycles), tests start in a pre-negotiated state.", "anchors": ["hwtLib/peripheral/usb/usb2/device_core.py:326-457"]}
{"id": "C280", "title": "Length of the USB device chirp", "statement": "A chirp K of the device which ended was sent for exactly CHIRPK_TIME - ATTACH_FS_TIME cycles (1 ms), or for CHIRPK_TIME + 2 cycles if the line left SE0 in the cycle in which it was started; it is never longer.", "quantifier": "all histories of line state, all clock frequencies for which the timer is wide enough (e.g. 60 MHz)", "why_tests_cant": "Same as C279; the longer case needs a change of the line in one particular cycle.", "anchors": ["hwtLib/peripheral/usb/usb2/device_core.py:366-443"]}
{"id": "C281", "title": "USB speed negotiation ends", "statement": "After its chirp the device always reports a negotiated speed (usb_speed.vld) in a bounded number of cycles whatever the host does.", "quantifier": "all clock frequencies, all behaviours of the host", "why_tests_cant": "Depends on the width of a counter which is derived from the frequency; a simulation needs millions of cycles for each frequency.", "anchors": ["hwtLib/peripheral/usb/usb2/device_core.py:366-443"]}
{"id": "C282", "title": "USB high speed only after chirps of the host", "statement": "Usb2DeviceCore reports high speed only if the host sent its chirps: there were at least 6 changes of the line since the end of the device chirp and they were K and J.", "quantifier": "all histories of line state, all clock frequencies", "why_tests_cant": "Any glitch sequence on the line; tests are pre-negotiated.", "anchors": ["hwtLib/peripheral/usb/usb2/device_core.py:345-443"]}
{"id": "C283", "title": "USB device: DATA0/DATA1 pid of IN packets", "statement": "Each IN packet has the pid which the host expects: DATA0 first after reset, DATA1 first after SETUP, then alternating per endpoint; a packet which the host did not acknowledge is sent again with the same pid.", "quantifier": "all configurations, all sequences of headers, data and handshakes, all endpoints", "why_tests_cant": "The alternation is over unbounded interleaving of transactions of several endpoints; tests use one sequence without a lost handshake.", "anchors": ["hwtLib/peripheral/usb/usb2/device_core.py:98-153", "hwtLib/peripheral/usb/usb2/device_core.py:155-321", "hwtLib/peripheral/usb/usb2/device_core.py:470-489"]}
{"id": "C284", "title": "USB device: ACK", "statement": "ACK is sent only as answer to PING or for a packet after OUT/SETUP token whose words were all offered to the endpoint with expected toggle and no error; a packet which is sent again because ACK was lost is acknowledged again.", "quantifier": "all configurations, all sequences of headers and data, all lengths of packets", "why_tests_cant": "It is about all packets including damaged and repeated ones; the tests have no lost handshake.", "anchors": ["hwtLib/peripheral/usb/usb2/device_core.py:98-153", "hwtLib/peripheral/usb/usb2/device_core.py:155-321", "hwtLib/peripheral/usb/usb2/device_core.py:470-489"]}
{"id": "C285", "title": "USB device: token for another device", "statement": "After a token with error (address of another device or wrong CRC) the device sends nothing and moves no data to or from endpoints.", "quantifier": "all configurations and sequences", "why_tests_cant": "Tests have one device on the bus and no damaged token.", "anchors": ["hwtLib/peripheral/usb/usb2/device_core.py:98-153", "hwtLib/peripheral/usb/usb2/device_core.py:155-321", "hwtLib/peripheral/usb/usb2/device_core.py:470-489"]}
{"id": "C286", "title": "USB device: PING", "statement": "PING is always answered: STALL if the OUT endpoint is stalled, ACK iff there is a space for data, NACK otherwise.", "quantifier": "all states of both directions of the endpoint", "why_tests_cant": "The combination of states of OUT and IN buffers is not enumerated by tests; PING is not tested.", "anchors": ["hwtLib/peripheral/usb/usb2/device_core.py:98-153", "hwtLib/peripheral/usb/usb2/device_core.py:155-321", "hwtLib/peripheral/usb/usb2/device_core.py:470-489"]}
{"id": "C287", "title": "USB device: answer of received data", "statement": "Data which were delivered to the OUT endpoint without error are acknowledged, ACK is held until SIE takes it.", "quantifier": "all states, any delay of SIE", "why_tests_cant": "It depends on state of the other direction of the endpoint at the time of handshake.", "anchors": ["hwtLib/peripheral/usb/usb2/device_core.py:98-153", "hwtLib/peripheral/usb/usb2/device_core.py:155-321", "hwtLib/peripheral/usb/usb2/device_core.py:470-489"]}
{"id": "C288", "title": "USB device: each IN token is answered", "statement": "An IN token which comes when the device does not transmit is answered in the next cycle: STALL, data, or NACK.", "quantifier": "all sequences of packets, including lost ones", "why_tests_cant": "Loss of a packet in each place of a transaction is not tested.", "anchors": ["hwtLib/peripheral/usb/usb2/device_core.py:98-153", "hwtLib/peripheral/usb/usb2/device_core.py:155-321", "hwtLib/peripheral/usb/usb2/device_core.py:470-489"]}
{"id": "C289", "title": "USB device: words of IN packets", "statement": "A word is taken from the endpoint exactly when it is sent to SIE with data pid, or as STALL if it is a word with tx_stall.", "quantifier": "all sequences, any delay of SIE", "why_tests_cant": "Unbounded sequences with arbitrary delays.", "anchors": ["hwtLib/peripheral/usb/usb2/device_core.py:98-153", "hwtLib/peripheral/usb/usb2/device_core.py:155-321", "hwtLib/peripheral/usb/usb2/device_core.py:470-489"]}
{"id": "C290", "title": "USB EP0: address", "statement": "The address of the device changes only when the zero length packet of the status stage is taken after a SET_ADDRESS request, and it becomes the address from the request; until then the old one is used.", "quantifier": "all devices, all sequences of requests and data with arbitrary delays", "why_tests_cant": "All requests and all orders of transfers; the tests do one enumeration.", "anchors": ["hwtLib/peripheral/usb/usb2/device_common.py:102-129", "hwtLib/peripheral/usb/usb2/device_common.py:131-184", "hwtLib/peripheral/usb/usb2/device_common.py:239-303"]}
{"id": "C291", "title": "USB EP0: response to GET_DESCRIPTOR", "statement": "The response to GET_DESCRIPTOR (device, configuration) is the descriptor from ROM cut to wLength, split to packets of maximal size, and then the status stage follows.", "quantifier": "all ROMs, lengths, sizes of packet and delays", "why_tests_cant": "All lengths and sizes of packet; the boundary case length = multiple of packet size is not in tests.", "anchors": ["hwtLib/peripheral/usb/usb2/device_common.py:61-100", "hwtLib/peripheral/usb/usb2/device_common.py:186-198", "hwtLib/peripheral/usb/usb2/device_common.py:266-279"]}
{"id": "C292", "title": "USB EP0: length of response", "statement": "A response to GET_DESCRIPTOR has at most wLength bytes.", "quantifier": "all requests", "why_tests_cant": "The set of requests is 2^64.", "anchors": ["hwtLib/peripheral/usb/usb2/device_common.py:61-100"]}
{"id": "C293", "title": "USB EP0: STALL of a not supported request", "statement": "The stall of a not supported request ends with its answer and does not affect other endpoints.", "quantifier": "all requests, all later sequences", "why_tests_cant": "Interaction of EP0 with other endpoints after an error is not tested.", "anchors": ["hwtLib/peripheral/usb/usb2/device_common.py:131-184", "hwtLib/peripheral/usb/usb2/device_common.py:266-303", "hwtLib/peripheral/usb/usb2/device_common.py:309-322"]}
{"id": "C294", "title": "USB EP0: SETUP is always accepted", "statement": "A request is accepted and processed in each stage of the previous transfer.", "quantifier": "all states", "why_tests_cant": "Aborted transfers are not tested.", "anchors": ["hwtLib/peripheral/usb/usb2/device_common.py:186-198", "hwtLib/peripheral/usb/usb2/device_common.py:239-303"]}
{"id": "C295", "title": "USB EP0: SET_CONFIGURATION", "statement": "dev_configured is set by SET_CONFIGURATION 1, cleared by SET_CONFIGURATION 0 and by reset, and not changed by anything else.", "quantifier": "all requests, all sequences", "why_tests_cant": "All other requests must not change it.", "anchors": ["hwtLib/peripheral/usb/usb2/device_common.py:102-129", "hwtLib/peripheral/usb/usb2/device_common.py:139-184"]}
{"id": "C296", "title": "USB EP0: GET_STATUS, GET_CONFIGURATION", "statement": "GET_STATUS is answered by two bytes.", "quantifier": "all previous transfers", "why_tests_cant": "The response depends on a counter left by the previous transfer.", "anchors": ["hwtLib/peripheral/usb/usb2/device_common.py:139-184", "hwtLib/peripheral/usb/usb2/device_common.py:266-279"]}
{"id": "C297", "title": "USB EP0: SET_INTERFACE", "statement": "SET_INTERFACE (bRequest 11) with the only alternate setting of the first interface is accepted.", "quantifier": "all states", "why_tests_cant": "The constant is shared by the device and the tests.", "anchors": ["hwtLib/peripheral/usb/usb2/device_common.py:169-175", "hwtLib/peripheral/usb/device_request.py:39-53"]}
{"id": "C298", "title": "USB EP0: data stage from host", "statement": "In a transfer with data from host the status stage follows after wLength bytes.", "quantifier": "all previous transfers, all lengths", "why_tests_cant": "The length is left by the previous transfer.", "anchors": ["hwtLib/peripheral/usb/usb2/device_common.py:280-291"]}
{"id": "C299", "title": "USB data packets are sent with the CRC16 of USB", "statement": "Each data packet sent by Usb2SieDeviceTx leaves the residual 0x800D in a USB 2.0 CRC16 checker (register seeded with ones, bytes LSB first). (Code: the CRC is sent with reversed order of bits, packet 00 01 02 03 ends with 5E F7 instead of EF 7A; right only if the CRC is a palindrome.)", "quantifier": "all payloads of any length", "why_tests_cant": "the reference of the tests (UsbPacketData.crc16) has the same order of bits, so each test passes; the number of payloads is not bounded", "anchors": ["hwtLib/peripheral/usb/usb2/sie_tx.py:141-163", "hwtLib/logic/crc.py"]}
{"id": "C300", "title": "Usb2SieDeviceRx reports a CRC error exactly for data packets with wrong CRC16", "statement": "rx_data.error caused by CRC16 is set iff the residual of payload and CRC bytes is not the one of USB 2.0. (Code: exactly the packets which Usb2SieDeviceTx would send are accepted, bursts up to 16 bits in the payload are detected, but packets with the CRC of USB are rejected.)", "quantifier": "all payloads and CRC bytes", "why_tests_cant": "tests use the simulation host which has the same order of bits; error patterns can not be enumerated", "anchors": ["hwtLib/peripheral/usb/usb2/sie_rx.py:262-282"]}
{"id": "C301", "title": "NaiveCrcAccumulator computes the CRC defined by its parameters", "statement": "The value of NaiveCrcAccumulator is the CRC (register, REFIN, REFOUT, XOROUT) of the words. (Code: right without reflection for each polynomial; with REFIN and REFOUT the result is bit reversed, CRC_16_USB of '123456789' is 0x132D instead of CHECK 0xB4C8.)", "quantifier": "all widths, polynomials, initial values and sequences of words", "why_tests_cant": "it is the reference of tests, tests compare it with constants in the same convention", "anchors": ["hwtLib/logic/crc_test_utils.py:9-112"]}
{"id": "C302", "title": "Packets of the simulated USB host are USB packets", "statement": "deparse_packet of the UTMI host agent makes tokens and data packets with CRC5/CRC16 of USB 2.0. (Code: CRC is bit reversed, SETUP for address 0 ends with 0x40 instead of 0x10; for data packets the agent makes exactly the packets of Usb2SieDeviceTx.)", "quantifier": "all pids, addresses, endpoints and payloads", "why_tests_cant": "agents of the test bench are tested only with the devices of the same library", "anchors": ["hwtLib/peripheral/usb/usb2/utmi_usb_agent.py:55-80", "hwtLib/peripheral/usb/sim/agent_base.py:29-33", "hwtLib/peripheral/usb/sim/agent_base.py:84-88"]}
{"id": "C303", "title": "String formatter outputs exactly the formatted text", "statement": "Axi4S_strFormat (8 bit data) with stable numeric arguments outputs, one frame after the other, exactly the concatenation of its items: constant strings, the last N binary/octal/decimal/hexadecimal digits of the numbers (most significant first, in the case given by the format character) and the k-th string of every string argument in the k-th frame; last is set only in the last word of the frame.", "quantifier": "every format (any number and order of items, character counter wide enough), every value of arguments fitting its port, every strings, every pattern of ready/valid, every power-up content", "why_tests_cant": "formats, values and interleavings of ready/valid of the output and of every string input are unbounded; the converter to BCD is shared and must be restarted for every frame", "anchors": ["hwtLib/amba/axis_comp/strformat.py:127-211", "hwtLib/amba/axis_comp/strformat.py:214-365"]}
{"id": "C304", "title": "String formatter makes progress", "statement": "In every reachable state of Axi4S_strFormat, if the consumer is ready and the string inputs are valid, the next output word is transfered in at most INPUT_WIDTH+2 cycles (INPUT_WIDTH is the width of the BCD converter).", "quantifier": "every format, every reachable state", "why_tests_cant": "deadlock freedom over all reachable states", "anchors": ["hwtLib/amba/axis_comp/strformat.py:127-211", "hwtLib/amba/axis_comp/strformat.py:214-365"]}
{"id": "C305", "title": "Format strings are parsed with escapes", "statement": "_parse_format_groups returns the texts and groups {name:[digits]type} which were written in the format string, {{ and }} are escape sequences of braces as documented in axiS_strFormat.", "quantifier": "every sequence of texts and groups", "why_tests_cant": "the set of format strings is unbounded", "anchors": ["hwtLib/amba/axis_comp/strformat_fn.py:14-80", "hwtLib/amba/axis_comp/strformat_fn.py:84-119"]}
{"id": "C306", "title": "Character counter of the string formatter is wide enough", "statement": "The counter of characters of Axi4S_strFormat can count to the length of every item of the format, so every item and every frame ends.", "quantifier": "every format", "why_tests_cant": "depends on the order and lengths of items of the same type", "anchors": ["hwtLib/amba/axis_comp/strformat.py:138-168", "hwtLib/amba/axis_comp/strformat.py:306"]}
{"id": "C307", "title": "String formatter does the same as printf", "statement": "The text of a number of Axi4S_strFormat is that of printf: the number of digits is a minimum, shorter numbers are filled by spaces or by zeros if the number of digits starts with 0 (documentation of axiS_strFormat).", "quantifier": "every number, number of digits and type", "why_tests_cant": "all values and widths", "anchors": ["hwtLib/amba/axis_comp/strformat.py:87-98", "hwtLib/amba/axis_comp/strformat.py:188-211", "hwtLib/amba/axis_comp/strformat_fn.py:108-119"]}
{"id": "C308", "title": "PID controller computes the documented recurrence", "statement": "The output of PidController is u(k) = u(k-1) + a0*e(k) + a1*y(k) + a2*y(k-1) + a3*y(k-2) with e(k) = target - input, modulo the width of the output.", "quantifier": "every sequence of inputs, targets and coefficients, every width", "why_tests_cant": "sequences are unbounded and every operation wraps", "anchors": ["hwtLib/logic/pid.py:13-82"]}
{"id": "C309", "title": "Ripple adders add", "statement": "For operands of n bits and input carry, the output s of RippleAdder1/2/3 is the sum modulo 2^n and co is the carry out.", "quantifier": "every width n, every operands and carry", "why_tests_cant": "2^(2n+1) inputs for every width", "anchors": ["hwtLib/examples/hierarchy/rippleadder.py:14-231"]}
{"id": "C310", "title": "Read data of FlipRam belong to the memory selected by the request", "statement": "If a port of FlipRam requests a read, in the next cycle it outputs the word of the memory which was connected to the port in the cycle of the request.", "quantifier": "every state, every request of all ports, every value of select in both cycles", "why_tests_cant": "depends on the cycle of the flip relative to pending reads of both sides", "anchors": ["hwtLib/mem/atomic/flipRam.py:14-81"]}
{"id": "C311", "title": "Sides of FlipRam are isolated and exchanged by select", "statement": "While select is constant each side of FlipRam behaves as its own RAM regardless of the requests of the other side; a change of select exchanges the contents seen by the sides.", "quantifier": "every sequence of requests, every number and kind of ports, every contents", "why_tests_cant": "unbounded sequences of requests on all ports", "anchors": ["hwtLib/mem/atomic/flipRam.py:14-81"]}
{"id": "C312", "title": "Strings of polynomials are parsed to their coefficients", "statement": "parsePolyStr of a sum of terms cx^p with powers lower than the width returns the list of the coefficients.", "quantifier": "every list of terms, every width", "why_tests_cant": "the set of strings is unbounded", "anchors": ["hwtLib/logic/crcUtils.py:4-59"]}
{"id": "C313", "title": "Ping responder computes the Internet checksum", "statement": "The ICMP checksum in the reply of Axi4SPingResponder is the Internet checksum (RFC 1071) of the ICMP header of the reply.", "quantifier": "every identifier and sequence number", "why_tests_cant": "2^32 pairs; typical pings use small sequence numbers", "anchors": ["hwtLib/examples/builders/pingResponder.py:119-129"]}
{"id": "C314", "title": "Ping responder answers each request by one complete reply", "statement": "The words accepted from tx of Axi4SPingResponder are the concatenation of complete replies to the accepted echo requests with the address of the station, in order, each with the fields of its request; nothing else is answered.", "quantifier": "every sequence of requests, every number of words of frames, every pattern of valid/ready", "why_tests_cant": "unbounded sequences of frames and handshakes", "anchors": ["hwtLib/examples/builders/pingResponder.py:60-117", "hwtLib/examples/builders/pingResponder.py:131-171"]}
{"id": "C315", "title": "Input registers of frame join neither lose nor duplicate bytes", "statement": "For a consumer which takes bytes in order, the bytes and ends of frames taken from the registers of FrameJoinInputReg followed by those still in the registers are exactly those accepted on dataIn, in the same order.", "quantifier": "every REG_CNT, every number of bytes in the word, every sequence of words with arbitrary keep/last, every ready and keep masks of a consumer which takes bytes in order", "why_tests_cant": "interleavings of partial consumption, bubbles, empty words and back-pressure are unbounded", "anchors": ["hwtLib/amba/axis_comp/frame_join/input_reg.py:38-185"]}
{"id": "C316", "title": "Offsets of following frames are complete", "statement": "next_frame_offsets returns exactly the bit offsets in the word at which a stream with an allowed number of elements can end, including streams without an upper limit of the length, and always terminates.", "quantifier": "every width of an element, every data width, every minimum and (optional) maximum length", "why_tests_cant": "unbounded lengths; the loop stops at the first repeated offset", "anchors": ["hwtLib/abstract/frame_utils/alignment_utils.py:21-33"]}
{"id": "C317", "title": "Frame formats keep every byte once and in order", "statement": "create_frame lists every byte of the frame once, in order, with the position in input words and the flag of the last input word; join_streams produces only full words with the offset, all bytes of all frames in order without gaps and the padding of the last word.", "quantifier": "every number of bytes, offsets, word width and list of frames", "why_tests_cant": "unbounded number of frames and lengths", "anchors": ["hwtLib/abstract/frame_utils/alignment_utils.py:45-127"]}
{"id": "C318", "title": "Representative frame sizes have the same words as all frames", "statement": "The frames of sizes returned by get_important_byte_cnts have exactly the words (first byte, end byte, last) of frames of all allowed lengths.", "quantifier": "every word width, offset, size of the chunk, minimum and optional maximum count", "why_tests_cant": "infinite set of lengths is represented by a finite set", "anchors": ["hwtLib/abstract/frame_utils/alignment_utils.py:129-193"]}
{"id": "C319", "title": "Transitions of the frame join are deterministic and consistent", "statement": "The table of transitions is accepted by assert_transitions_deterministic exactly if no content of the input registers enables two transitions of a state. In an accepted table valid, keep, last, source of every byte, ready, masks and next state are all those of the one enabled transition; if nothing is enabled nothing is sent or consumed.", "quantifier": "every table, every number of inputs, registers and bytes, every content of registers", "why_tests_cant": "the number of register contents is exponential; values are grouped and prioritised separately for every output", "anchors": ["hwtLib/abstract/frame_utils/join/state_trans_table.py:24-31", "hwtLib/abstract/frame_utils/join/input_reg_val.py:24-35", "hwtLib/abstract/frame_utils/join/state_trans_item.py:101-108", "hwtLib/amba/axis_comp/frame_join/_join.py:128-287"]}
{"id": "C320", "title": "Joined frames of the frame join are concatenations of the input frames", "statement": "For Axi4S_FrameJoin with any frame types for which it can be generated: the k-th complete frame on dataOut is the concatenation of the k-th frames accepted on dataIn[0], dataIn[1], ... in this order, byte by byte, and the bytes of an incomplete output frame are a beginning of the next concatenation; nothing is lost, duplicated or reordered.", "quantifier": "for all frame types, word widths and output offsets, all power-up contents of data registers, all sequences of words (with the valid bytes next to each other) and ready signals", "why_tests_cant": "The data path is generated from a table of transitions over several registers per input; tests run several lengths without stalls", "anchors": ["hwtLib/amba/axis_comp/frame_join/_join.py:62-301", "hwtLib/amba/axis_comp/frame_join/input_reg.py:66-173", "hwtLib/abstract/frame_utils/join/fsm.py:25-236", "hwtLib/abstract/frame_utils/alignment_utils.py:196-311"]}
{"id": "C321", "title": "The frame join never blocks on allowed frames", "statement": "Axi4S_FrameJoin generated for some frame types: after any sequence of words of frames allowed by the types there is a continuation after which a further complete frame has left; the component has no state from which no output is possible.", "quantifier": "for all frame types which can be generated, all frames allowed by the types, all timings", "why_tests_cant": "Deadlock needs a particular combination of frame lengths which leaves an unexpected part of the word in a register", "anchors": ["hwtLib/amba/axis_comp/frame_join/_join.py:62-301", "hwtLib/abstract/frame_utils/alignment_utils.py:14-18", "hwtLib/abstract/frame_utils/alignment_utils.py:196-311"]}
{"id": "C322", "title": "Axi4S_eq answers true exactly for frames which carry the value", "statement": "Axi4S_eq with a value of VW bits and words of DW bits: for each input frame there is exactly one answer, and it is 1 if and only if the frame consists of the words of the value (unused bits of the last word are ignored).", "quantifier": "for all widths, values, all sequences of words and handshakes", "why_tests_cant": "Space of words and frame lengths, the comparison is spread over several cycles", "anchors": ["hwtLib/peripheral/ethernet/_axis_eq.py:18-84"]}
{"id": "C323", "title": "Answers of Axi4S_eq do not depend on the time in which the consumer is ready", "statement": "Axi4S_eq: the sequence of answers for a sequence of accepted words is the same for each behaviour of dataOut.rd.", "quantifier": "for all widths, values, all sequences of words and handshakes", "why_tests_cant": "Depends on an interleaving of two handshakes", "anchors": ["hwtLib/peripheral/ethernet/_axis_eq.py:18-84"]}
{"id": "C324", "title": "The Ethernet receiver does not deliver frames of other stations", "statement": "EthernetMac with the default address filter: each frame on eth.rx is a received frame with the address of the receiver (without the FCS); frames with another destination address are dropped as a whole.", "quantifier": "for all addresses, fifo depths, sequences of frames of legal length and spacing, all timings", "why_tests_cant": "The receiver is composed of five stateful components, the fault depends on the position of an event relative to words which are still inside; tests use separated frames and an always ready consumer", "anchors": ["hwtLib/peripheral/ethernet/mac.py:84-203"]}
{"id": "C325", "title": "The Ethernet receiver does not deliver frames with a PHY error", "statement": "EthernetMac: a frame in which phy_rx.err was set with any byte is dropped as a whole.", "quantifier": "for all fifo depths, sequences of frames of legal length and spacing, positions of the error, all timings", "why_tests_cant": "The receiver is composed of five stateful components, the fault depends on the position of an event relative to words which are still inside; tests use separated frames and an always ready consumer", "anchors": ["hwtLib/peripheral/ethernet/mac.py:84-203"]}
{"id": "C326", "title": "A frame with a wrong FCS has no effect", "statement": "EthernetMac with an always ready consumer: if a frame with a wrong FCS is received between other frames, the frames delivered are the same as if nothing was received in this time.", "quantifier": "for all fifo depths, sequences of frames of legal length and spacing", "why_tests_cant": "The receiver is composed of five stateful components, the fault depends on the position of an event relative to words which are still inside; tests use separated frames and an always ready consumer", "anchors": ["hwtLib/peripheral/ethernet/mac.py:84-203"]}
{"id": "C327", "title": "A frame which does not fit in the receive fifo is dropped as a whole", "statement": "EthernetMac: also if err_rx_out_of_mem was set, each frame on eth.rx is a received frame without its FCS.", "quantifier": "for all fifo depths, sequences of frames of legal length and spacing, all timings", "why_tests_cant": "The receiver is composed of five stateful components, the fault depends on the position of an event relative to words which are still inside; tests use separated frames and an always ready consumer", "anchors": ["hwtLib/peripheral/ethernet/mac.py:84-203"]}
{"id": "C328", "title": "All good frames are delivered to a consumer which is always ready", "statement": "EthernetMac: if all received frames are for this station, without errors and with a proper FCS, err_rx_out_of_mem was not set and eth.rx.ready is always 1, then all of them are delivered in a finite time.", "quantifier": "for all fifo depths, sequences of frames of legal length and spacing", "why_tests_cant": "The receiver is composed of five stateful components, the fault depends on the position of an event relative to words which are still inside; tests use separated frames and an always ready consumer", "anchors": ["hwtLib/peripheral/ethernet/mac.py:84-203"]}
{"id": "C329", "title": "A stall of the consumer does not lose a frame", "statement": "EthernetMac: a good frame which fits in the fifo is delivered in a finite time after the consumer is ready, even if the consumer was not ready for some time.", "quantifier": "for all fifo depths, frames of legal length, behaviours of eth.rx.ready", "why_tests_cant": "The receiver is composed of five stateful components, the fault depends on the position of an event relative to words which are still inside; tests use separated frames and an always ready consumer", "anchors": ["hwtLib/peripheral/ethernet/mac.py:84-203"]}
{"id": "C330", "title": "Write aggregator sends each accepted line once, in order", "statement": "AxiWriteAggregator: for an AXI master which marks the last word of each line and a memory which answers only complete transactions, the addresses transferred on m are the accepted line addresses in order of acceptance with ids 0..2^ID_WIDTH-1 cyclically and the right length; the words on m write exactly the bytes which the words on s write, in order, with last on the last word of each line; the number of words inside is bounded.", "quantifier": "for all line sizes 2^k words, all numbers of items, all masters, all memories, all stalls, all power-up contents", "why_tests_cant": "Six stateful components are connected; the result depends on the alignment of the words of lines, of confirmations and of stalls on both sides; tests run a handful of random patterns and compare the final memory only", "anchors": ["hwtLib/amba/axi_comp/lsu/write_aggregator.py:26-293", "hwtLib/amba/axi_comp/lsu/fifo_oooread.py:65-221", "hwtLib/amba/axi_comp/lsu/write_aggregator_write_dispatcher.py"]}
{"id": "C331", "title": "Write aggregator answers each line once with its id", "statement": "AxiWriteAggregator: responses on s.b have the ids of the accepted lines in order, a response comes only after all words of its line were accepted and at most two responses wait.", "quantifier": "for all line sizes, masters, stalls", "why_tests_cant": "Six stateful components are connected; the result depends on the alignment of the words of lines, of confirmations and of stalls on both sides; tests run a handful of random patterns and compare the final memory only", "anchors": ["hwtLib/amba/axi_comp/lsu/write_aggregator.py:26-293", "hwtLib/amba/axi_comp/lsu/fifo_oooread.py:65-221", "hwtLib/amba/axi_comp/lsu/write_aggregator_write_dispatcher.py"]}
{"id": "C332", "title": "Writes to a waiting line are merged", "statement": "AxiWriteAggregator (documentation: write transaction merging): a line written twice while the first write waits in the buffer is sent to m as one transaction.", "quantifier": "for all runs in which m accepts nothing until both writes are accepted", "why_tests_cant": "Tests named test_mergable compare only the final content of an in-order memory, which is the same without merging", "anchors": ["hwtLib/amba/axi_comp/lsu/write_aggregator.py:26-293", "hwtLib/amba/axi_comp/lsu/fifo_oooread.py:65-221", "hwtLib/amba/axi_comp/lsu/write_aggregator_write_dispatcher.py"]}
{"id": "C333", "title": "At most one transaction of a line in flight", "statement": "AxiWriteAggregator: a transaction of a line is not started on m while another transaction of the same line is not confirmed (AXI does not order transactions with different ids, so the older data could win).", "quantifier": "for all runs", "why_tests_cant": "The simulation memory executes transactions in order, so a test cannot observe the race", "anchors": ["hwtLib/amba/axi_comp/lsu/write_aggregator.py:26-293", "hwtLib/amba/axi_comp/lsu/fifo_oooread.py:65-221", "hwtLib/amba/axi_comp/lsu/write_aggregator_write_dispatcher.py"]}
{"id": "C334", "title": "Ids on m are unique", "statement": "AxiWriteAggregator: each id has at most one transaction in flight on m.", "quantifier": "for all runs, line sizes 2^k, numbers of items", "why_tests_cant": "Six stateful components are connected; the result depends on the alignment of the words of lines, of confirmations and of stalls on both sides; tests run a handful of random patterns and compare the final memory only", "anchors": ["hwtLib/amba/axi_comp/lsu/write_aggregator.py:26-293", "hwtLib/amba/axi_comp/lsu/fifo_oooread.py:65-221", "hwtLib/amba/axi_comp/lsu/write_aggregator_write_dispatcher.py"]}
{"id": "C335", "title": "Speculative reads of the store queue are answered in order, once each", "statement": "In every run of Axi4StoreQueueWritePropagating the ids on speculative_read_data are a prefix of the ids accepted on speculative_read_addr, and at most two accepted reads are not answered yet.", "quantifier": "all numbers of items, all power-up contents, all sequences of writes, memory responses and stalls of both read ports", "why_tests_cant": "The order must hold for any stall pattern of the consumer and of the two internal register chains.", "anchors": ["hwtLib/amba/axi_comp/lsu/store_queue_write_propagating.py:107-165"]}
{"id": "C336", "title": "EXOKAY of a speculative read means that all older writes of the line are confirmed", "statement": "With a ready consumer a speculative read is accepted at once and answered in the second cycle after it with its id; if the answer is EXOKAY then every write of the line which was accepted before the read has its response from the memory (so the memory contains it).", "quantifier": "all numbers of items, all runs of the write side before the read, all lines and ids", "why_tests_cant": "The write can be in the input register, in the FIFO or confirmed exactly in the cycles of the read; tests hit few of the phases.", "anchors": ["hwtLib/amba/axi_comp/lsu/store_queue_write_propagating.py:107-209", "hwtLib/amba/axi_comp/lsu/write_aggregator.py:1-323"]}
{"id": "C337", "title": "OKAY of a speculative read returns the bytes of a write of the line", "statement": "With a ready consumer, if a speculative read is answered OKAY then there is an accepted write of the same line such that each byte enabled by its strobe has in the answer the value from the write.", "quantifier": "all numbers of items, all runs of the write side, all lines and ids", "why_tests_cant": "The data come from four places (input register, two delayed copies, data memory) and the item can be confirmed or reused while the read is in progress.", "anchors": ["hwtLib/amba/axi_comp/lsu/store_queue_write_propagating.py:107-209"]}
{"id": "C338", "title": "A speculative read returns the latest write of the line", "statement": "If a speculative read is answered OKAY then no write of the line which was accepted before the read is newer than the returned one.", "quantifier": "all runs, all lines", "why_tests_cant": "Needs two writes of a line stored at once in a particular order of slots.", "anchors": ["hwtLib/amba/axi_comp/lsu/store_queue_write_propagating.py:133-209"]}
{"id": "C339", "title": "A speculative read answered OKAY contains only written bytes", "statement": "If a speculative read is answered OKAY then each byte of the data was written by an accepted write of the line.", "quantifier": "all runs, all strobes", "why_tests_cant": "Tests of the component write whole words.", "anchors": ["hwtLib/amba/axi_comp/lsu/store_queue_write_propagating.py:167-209"]}
{"id": "C340", "title": "LCD driver sends no command before the power up delay", "statement": "The HD44780 driver does not pulse en (send a command to the display) before the power up delay of 410 LCD clocks has passed.", "quantifier": "all COLS which elaborate, clock ratios, input sequences shorter than the delay", "why_tests_cant": "The test checks only the final screen of an agent which accepts commands at any time.", "anchors": ["hwtLib/peripheral/displays/hd44780/driver.py:192-236", "hwtLib/peripheral/displays/hd44780/intf.py:27-29"]}
{"id": "C341", "title": "LCD driver sends the commands of each character once and in order", "statement": "The commands on the pins at the rising edges of en are the initialization sequence followed by the commands of the characters in the order in which they were accepted: one write for a printable character, one clear for a form feed, jump / COLS spaces / jump for a new line. No command is lost, repeated or reordered and once a character is accepted its commands are complete.", "quantifier": "all COLS which elaborate, clock ratios, texts, arrival times of the characters, latch and undefined values", "why_tests_cant": "One short text with one timing is simulated; lost or repeated commands depend on the alignment of the LCD clock and the arrival of the character.", "anchors": ["hwtLib/peripheral/displays/hd44780/driver.py:94-190", "hwtLib/peripheral/displays/hd44780/driver.py:192-236", "hwtLib/peripheral/displays/hd44780/driver.py:258-285", "hwtLib/handshaked/joinPrioritized.py:60-62"]}
{"id": "C342", "title": "LCD command pins are stable around the falling edge of en", "statement": "While en is high rs and d are defined and do not change, also not in the clock cycle after the last one with en high (the display samples on the falling edge).", "quantifier": "all COLS which elaborate, clock ratios, texts and arrival times", "why_tests_cant": "The agent samples on the rising edge, the test can not see a change later.", "anchors": ["hwtLib/peripheral/displays/hd44780/driver.py:192-236", "hwtLib/peripheral/displays/hd44780/driver.py:281-292"]}
{"id": "C343", "title": "LCD driver accepts each offered character in bounded time", "statement": "A character which is kept valid on dataIn is accepted within (COLS+6)*(411*LCD_CLK_PER+2) clock cycles in each reachable state; each text can be written.", "quantifier": "all COLS which elaborate, clock ratios > 0, reachable states, characters", "why_tests_cant": "A simulation shows progress for one text only; a stuck state of the three nested state machines could be reached by another sequence.", "anchors": ["hwtLib/peripheral/displays/hd44780/driver.py:94-190", "hwtLib/peripheral/displays/hd44780/driver.py:192-236"]}
{"id": "C344", "title": "LCD shows the text which was sent", "statement": "If no line is longer than COLS, the screen of the display (model of the LCD agent) is the screen of a two line terminal which got the same characters: printable characters at the cursor, new line continues in the other (cleared) line, form feed clears the screen and moves the cursor to its start.", "quantifier": "all even COLS which elaborate, clock ratios, texts with lines which fit, arrival times", "why_tests_cant": "The tests write a few texts; a form feed in the second line is not tested.", "anchors": ["hwtLib/peripheral/displays/hd44780/driver.py:94-190", "hwtLib/peripheral/displays/hd44780/intf.py:143-253"]}
{"id": "C345", "title": "Debug bus monitor: the tool reads back the description of the signals", "statement": "The bytes which DebugBusMonitorCtl reads from the meta memory (size and offset registers, then words of 4 bytes) are exactly the text which DebugBusMonitor stored there.", "quantifier": "all texts shorter than 2^32 bytes, widths and contents of the data memory", "why_tests_cant": "One example with one text length is simulated; the result depends on the length modulo the word and on the padding to a power of two.", "anchors": ["hwtLib/abstract/debug_bus_monitor.py:137-191", "hwtLib/abstract/debug_bus_monitor.py:233-246", "hwtLib/tools/debug_bus_monitor_ctl.py:29-38", "hwtLib/tools/debug_bus_monitor_ctl.py:237-268", "hwtLib/tools/debug_bus_monitor_ctl.py:336-347"]}
{"id": "C346", "title": "Debug bus monitor: descriptions point to the right bits", "statement": "The offset and width stored in the meta memory for a monitored signal select its value in the data memory.", "quantifier": "all sequences of registered interfaces, all parent/child relations between them, all values", "why_tests_cant": "The example registers each child directly behind its parent; other orders are not tested.", "anchors": ["hwtLib/abstract/debug_bus_monitor.py:144-152", "hwtLib/abstract/debug_bus_monitor.py:194-246"]}
{"id": "C347", "title": "Debug bus monitor: dump_txt prints the current values", "statement": "dump_txt prints the values of all monitored signals as they are on the monitored interfaces (for records registered parent first).", "quantifier": "all forests of records, interfaces, values and texts of the meta memory", "why_tests_cant": "In the example the last record is a root, the size of the data memory which does not count with children is not visible.", "anchors": ["hwtLib/tools/debug_bus_monitor_ctl.py:196-210", "hwtLib/tools/debug_bus_monitor_ctl.py:237-283", "hwtLib/abstract/debug_bus_monitor.py:137-191"]}
{"id": "C348", "title": "Debug bus monitor: dump_txt prints each record", "statement": "Each record and each of its signals has a line in the output of dump_txt, in the order and with the indentation of the hierarchy.", "quantifier": "all forests of records", "why_tests_cant": "In the example only visual containers have children.", "anchors": ["hwtLib/tools/debug_bus_monitor_ctl.py:196-210"]}
{"id": "C349", "title": "Debug bus monitor: colors of interfaces", "statement": "ColorizerHandshakeOrEnLike: a handshake is green for a transfer, red if only valid, purple if idle; an interface with only valid (or only ready) is green if it is active and red if not.", "quantifier": "all members of interfaces and values", "why_tests_cant": "Only handshakes are in the example.", "anchors": ["hwtLib/tools/debug_bus_monitor_ctl.py:50-99"]}
{"id": "C350", "title": "Axi4S_frameDeparser: strb and keep of words without unions", "statement": "In a word built of plain fields and padding, bit k of strb is set iff byte k holds data of a field and bit k of keep is set iff byte k must not be removed; the masks exist for all byte aligned fields.", "quantifier": "all sequences of fields and paddings of any width", "why_tests_cant": "Neighbouring parts are merged by their flags; tests contain few shapes of words.", "anchors": ["hwtLib/amba/axis_comp/frame_deparser/strb_keep_stash.py:12-72", "hwtLib/amba/axis_comp/frame_deparser/_deparser.py:226-243", "hwtLib/amba/axis_comp/frame_deparser/_deparser.py:375-382"]}
{"id": "C351", "title": "Axi4S_frameDeparser: strb of words with unions", "statement": "For the selected members of the unions in the word strb marks exactly the bytes which hold data.", "quantifier": "all words of fields, paddings and unions with any members, all selections", "why_tests_cant": "Only unions without padding or with members of different masks are in tests.", "anchors": ["hwtLib/amba/axis_comp/frame_deparser/strb_keep_stash.py:22-63", "hwtLib/amba/axis_comp/frame_deparser/strb_keep_stash.py:86-115", "hwtLib/amba/axis_comp/frame_deparser/_deparser.py:156-243"]}
{"id": "C352", "title": "Axi4S_frameDeparser: keep of words with unions", "statement": "For the selected members of the unions in the word keep marks exactly the bytes which must not be removed.", "quantifier": "all words of fields, paddings and unions with any members, all selections", "why_tests_cant": "No test uses keep with a union.", "anchors": ["hwtLib/amba/axis_comp/frame_deparser/strb_keep_stash.py:103-115", "hwtLib/amba/axis_comp/frame_deparser/_deparser.py:156-243"]}
{"id": "C353", "title": "HwExceptionRaise passes the values which do not raise", "statement": "The values transferred on dataOut are the values accepted on dataIn other than 0 and 1, in order, none lost or duplicated, and an offered value is kept until it is taken, whatever the handlers of the exceptions do.", "quantifier": "all runs, states, values, and handshake behaviour of all four interfaces", "why_tests_cant": "Interleavings of stalls, raises and acknowledges are unbounded.", "anchors": ["hwtLib/examples/builders/hwException.py:46-97", "hwtLib/abstract/hwExceptionCtx.py:100-147"]}
{"id": "C354", "title": "hw_raise: the component is stalled exactly while an exception waits for its handler", "statement": "dataIn and dataOut are stalled iff an exception was raised and rd of its interface was 0 in the raising cycle and in all cycles since.", "quantifier": "all runs from reset", "why_tests_cant": "It relates a cycle to an arbitrarily old cycle.", "anchors": ["hwtLib/examples/builders/hwException.py:80-97", "hwtLib/abstract/hwExceptionCtx.py:127-147"]}
{"id": "C355", "title": "hw_raise: the exception interface follows the handshake", "statement": "vld of an exception which was not acknowledged by rd stays set in the next cycle.", "quantifier": "all runs with a source of dataIn which follows the handshake", "why_tests_cant": "Depends on the timing of the handler.", "anchors": ["hwtLib/abstract/hwExceptionCtx.py:127-147", "hwtLib/examples/builders/hwException.py:54-79"]}
{"id": "C356", "title": "hw_raise: one exception for each raising value", "statement": "When no exception is waiting, the handler of each exception took (vld & rd) exactly as many exceptions as there were raising values accepted on dataIn.", "quantifier": "all runs with a source of dataIn which follows the handshake", "why_tests_cant": "Depends on the timing of the handlers of both exceptions.", "anchors": ["hwtLib/abstract/hwExceptionCtx.py:127-147", "hwtLib/examples/builders/hwException.py:54-97"]}
{"id": "C357", "title": "HwExceptionCatch: what passes", "statement": "dataOut carries exactly the values other than 1 which were accepted before the first 0 or 2, in order, and nothing afterwards.", "quantifier": "all runs from reset", "why_tests_cant": "A claim about the whole future of the component.", "anchors": ["hwtLib/examples/builders/hwException.py:115-166"]}
{"id": "C358", "title": "HwExceptionCatch stalls after an exception which is never handled", "statement": "After 0 or 2 was accepted no further value is accepted until reset.", "quantifier": "all runs from reset", "why_tests_cant": "A claim about the whole future of the component.", "anchors": ["hwtLib/examples/builders/hwException.py:100-166"]}
{"id": "C359", "title": "AddrDataRdVld_to_Axi: limit of pending transactions", "statement": "The number of read or write transactions accepted and not yet answered never exceeds the configured limit MAX_TRANS_OVERLAP.", "quantifier": "all runs from reset, all limits, all timings of the bus", "why_tests_cant": "Needs runs of unbounded length and every interleaving of requests and responses.", "anchors": ["hwtLib/commonHwIO/addr_data_to_Axi.py:166-175", "hwtLib/commonHwIO/addr_data_to_Axi.py:228-250", "hwtLib/commonHwIO/addr_data_to_Axi.py:278-279"]}
{"id": "C360", "title": "AddrDataRdVld_to_Axi: place of a word", "statement": "The word written to address a is stored at M_ADDR_OFFSET + a * S_ADDR_STEP / 8 on the AXI bus.", "quantifier": "all addresses, offsets, steps and data widths", "why_tests_cant": "Tests use one offset and one step.", "anchors": ["hwtLib/commonHwIO/addr_data_to_Axi.py:79-128", "hwtLib/commonHwIO/addr_data_to_Axi.py:177-182"]}
{"id": "C361", "title": "AddrDataRdVld_to_Axi: words of different addresses do not overlap", "statement": "Writes to two different addresses mark no common byte of the AXI memory.", "quantifier": "all pairs of addresses, all steps and widths", "why_tests_cant": "A claim about all pairs of addresses.", "anchors": ["hwtLib/commonHwIO/addr_data_to_Axi.py:79-128"]}
{"id": "C362", "title": "AddrDataRdVld_to_Axi: burst length and 4KB pages", "statement": "len of the address channel is the number of data words minus one and a burst does not cross a 4KB boundary.", "quantifier": "all addresses, offsets and widths", "why_tests_cant": "Only some addresses come near a page boundary.", "anchors": ["hwtLib/commonHwIO/addr_data_to_Axi.py:79-128", "hwtLib/commonHwIO/addr_data_to_Axi.py:177-182"]}
{"id": "C363", "title": "Memory space master: address of a register", "statement": "The bus address used for a register named by a path of fields and array items is the address of its first bit in the layout of the register map; it exists for exactly the registers of the map and differs for different registers.", "quantifier": "all register maps of nested structures, paddings and arrays, all paths, all address units", "why_tests_cant": "Nesting of structures and arrays is unbounded, tests use a few maps.", "anchors": ["hwtLib/sim/abstractMemSpaceMaster.py:14-18", "hwtLib/sim/abstractMemSpaceMaster.py:48-79", "hwtLib/sim/abstractMemSpaceMaster.py:88-114"]}
{"id": "C364", "title": "Memory space master: write strobe", "statement": "The mask of a write marks exactly the bytes of the bus word which belong to the register.", "quantifier": "all registers of whole bytes which fit in one word, all buses", "why_tests_cant": "The endpoints in tests ignore the strobe.", "anchors": ["hwtLib/sim/abstractMemSpaceMaster.py:20-22", "hwtLib/sim/abstractMemSpaceMaster.py:138-139", "hwtLib/sim/abstractMemSpaceMaster.py:32-37"]}
{"id": "C365", "title": "StructReader and StructWriter: requests", "statement": "Each accepted address produces exactly one request for each frame of the structure, in the order of the frames, before the next address is served.", "quantifier": "all lists of frames, all runs with a source which keeps its address, all stalls and acknowledges", "why_tests_cant": "All interleavings of stalls.", "anchors": ["hwtLib/structManipulators/structReader.py:128-141", "hwtLib/structManipulators/structWriter.py:95-110"]}
{"id": "C366", "title": "StructReader and StructWriter: size of a request", "statement": "For each structure the request of each frame can be built and asks for exactly the bytes of the frame on the address of the frame.", "quantifier": "all structures (frames), data widths and addresses", "why_tests_cant": "Claim about all structures, tests use a few.", "anchors": ["hwtLib/structManipulators/structReader.py:72-75", "hwtLib/structManipulators/structReader.py:115-116", "hwtLib/structManipulators/structReader.py:128-136", "hwtLib/structManipulators/structWriter.py:95-108", "hwtLib/amba/datapump/intf.py:31-44", "hwtLib/amba/datapump/intf.py:118-122"]}
{"id": "C367", "title": "StructWriter: one writeAck for each structure", "statement": "When all frames of all structures were requested and acknowledged by the datapump, there was exactly one writeAck for each address accepted on set.", "quantifier": "all lists of frames, all runs", "why_tests_cant": "writeAck is not checked by tests, runs are unbounded.", "anchors": ["hwtLib/structManipulators/structWriter.py:95-110", "hwtLib/structManipulators/structWriter.py:116-122", "hwtLib/structManipulators/structWriter.py:19-20"]}
{"id": "C368", "title": "StructWriter with WRITE_ACK accepts a structure only in idle", "statement": "With WRITE_ACK an address is accepted only if all frames of earlier structures were acknowledged; the number of requests without acknowledge is bounded by the capacity of the info fifo.", "quantifier": "all lists of frames, all runs, all capacities", "why_tests_cant": "Relates cycles which are arbitrarily far apart.", "anchors": ["hwtLib/structManipulators/structWriter.py:79-90", "hwtLib/structManipulators/structWriter.py:95-122"]}
{"id": "C369", "title": "Memory space master: items of an array", "statement": "An access to an item returns the item of that index whatever was accessed before, and raises outside of the array.", "quantifier": "all arrays, all histories of accesses", "why_tests_cant": "Claim about all histories of accesses (cache).", "anchors": ["hwtLib/sim/abstractMemSpaceMaster.py:88-114"]}
{"id": "C370", "title": "AxiTester: each command is executed once", "statement": "If the controller writes a command only after it has read status 1 since the last command, the transfers on the AXI channels are exactly the written commands, in order, each once (the last may be in progress); at most one channel transfers in a cycle.", "quantifier": "all runs from reset, all timings of the controller and of the AXI bus", "why_tests_cant": "Lost commands depend on the distance of the write and the read of the status.", "anchors": ["hwtLib/amba/axi_comp/tester.py:138-152", "hwtLib/amba/axi_comp/tester.py:158-187"]}
{"id": "C371", "title": "AxiTester: result registers", "statement": "The registers of the read channel and of the write response channel hold the content of the last transfer of the channel.", "quantifier": "all runs from reset in which the control bus does not write these registers, all widths", "why_tests_cant": "Only some of the registers are read in tests.", "anchors": ["hwtLib/amba/axi_comp/tester.py:122-136", "hwtLib/amba/axi_comp/tester.py:217-242", "hwtLib/amba/axi_comp/tester.py:58-59"]}
{"id": "C372", "title": "AxiTester: offered items are kept", "statement": "An item offered on aw, ar or w stays offered unchanged until it is taken; ready of r and b stays until the transfer.", "quantifier": "all runs from reset", "why_tests_cant": "Depends on writes of registers during stalls.", "anchors": ["hwtLib/amba/axi_comp/tester.py:122-136", "hwtLib/amba/axi_comp/tester.py:189-215", "hwtLib/amba/axi_comp/tester.py:226-242"]}
{"id": "C373", "title": "SegmentedArrayProxy: read after write", "statement": "A value written to an item of the proxy is read back and other items are not changed.", "quantifier": "all widths of the elements, numbers of memories, words per item, contents and values", "why_tests_cant": "Claim about all shapes of memories and all values.", "anchors": ["hwtLib/mem/sim/segmentedArrayProxy.py:36", "hwtLib/mem/sim/segmentedArrayProxy.py:46-82"]}
{"id": "C374", "title": "SegmentedArrayProxy: number of items", "statement": "len of the proxy is the number of items and all counted items are inside of the memories.", "quantifier": "all shapes of memories", "why_tests_cant": "Claim about all shapes.", "anchors": ["hwtLib/mem/sim/segmentedArrayProxy.py:84-89"]}
{"id": "C375", "title": "AxiInterconnectMatrix: access rights", "statement": "A read (write) transaction of a master gets exactly to the slave which has the address in its region and which the master is allowed to read (write).", "quantifier": "all configurations of masters and slaves with any access rights, all masters and addresses", "why_tests_cant": "Claim about all combinations of access rights.", "anchors": ["hwtLib/amba/axi_comp/interconnect/matrix.py:60-64", "hwtLib/amba/axi_comp/interconnect/matrix.py:94-131", "hwtLib/abstract/busInterconnect.py:120-154"]}
{"id": "C376", "title": "AxiInterconnectMatrix: ports of sub interconnects", "statement": "With masters which can read and write their slaves a transaction gets exactly to the slave port with the address in its region.", "quantifier": "all numbers of masters and slaves, all visibility sets, all addresses", "why_tests_cant": "Depends on the iteration order of sets of port indexes.", "anchors": ["hwtLib/amba/axi_comp/interconnect/matrix.py:58-78", "hwtLib/amba/axi_comp/interconnect/matrix.py:82-91", "hwtLib/amba/axi_comp/interconnect/matrix.py:149-170"]}
{"id": "C377", "title": "AxiInterconnectMatrix: elaboration", "statement": "The interconnect can be built for each configuration where each master and each slave has at least one access right.", "quantifier": "all configurations", "why_tests_cant": "Claim about all configurations.", "anchors": ["hwtLib/amba/axi_comp/interconnect/matrix.py:44-66", "hwtLib/amba/axi_comp/interconnect/matrix.py:94-146"]}
{"id": "C378", "title": "UsbDescriptorBundle: descriptor rom", "statement": "The rom is the concatenation of the descriptors and the k-th entry of the table of a descriptor type is the address and the size of the k-th descriptor of this type.", "quantifier": "all lists of descriptors, all types", "why_tests_cant": "Claim about all bundles.", "anchors": ["hwtLib/peripheral/usb/descriptors/bundle.py:175-187", "hwtLib/peripheral/usb/descriptors/bundle.py:194-206"]}
{"id": "C379", "title": "UsbDescriptorBundle: bytes for GET_DESCRIPTOR", "statement": "The k-th descriptor of a type is found iff it exists, and its bytes are the first wLength bytes of the rom from its beginning (less only at the end of the rom).", "quantifier": "all lists of descriptors, all types, indexes and lengths", "why_tests_cant": "Claim about all bundles and lengths.", "anchors": ["hwtLib/peripheral/usb/descriptors/bundle.py:80-96", "hwtLib/peripheral/usb/descriptors/bundle.py:106-132"]}
{"id": "C380", "title": "UsbDescriptorBundle: endpoint capabilities", "statement": "An endpoint is present iff it has a descriptor; it supports exactly the transfer types of its descriptors, its packet size is the maximum of its descriptors and the buffer has two packets.", "quantifier": "all lists of descriptors accepted by get_endpoint_meta", "why_tests_cant": "Claim about all bundles.", "anchors": ["hwtLib/peripheral/usb/descriptors/bundle.py:134-173", "hwtLib/peripheral/usb/descriptors/std.py:341-347"]}
{"id": "C381", "title": "USB string descriptor", "statement": "The string which the host decodes (UTF-16LE) from a string descriptor is the string for which it was made; bLength is its length.", "quantifier": "all unicode strings which fit a descriptor", "why_tests_cant": "Claim about all strings.", "anchors": ["hwtLib/peripheral/usb/descriptors/std.py:419-435"]}
{"id": "C382", "title": "HdlType_separate: split of a type", "statement": "Each item of the type is in exactly one piece with the same path and the order is kept; marked pieces are a single separated item, others have no separated item; names of fields stay distinct.", "quantifier": "all types with nested structs, all queries", "why_tests_cant": "Claim about all type trees.", "anchors": ["hwtLib/abstract/template_configured.py:65-106", "hwtLib/abstract/template_configured.py:109-119"]}
{"id": "C383", "title": "RtlSignalBuilder: and, or of optional signals", "statement": "The result is the conjunction (disjunction) of the signals which are present and None iff no signal is present.", "quantifier": "all optional signals and values", "why_tests_cant": "Claim about all combinations.", "anchors": ["hwtLib/logic/rtlSignalBuilder.py:8-20", "hwtLib/logic/rtlSignalBuilder.py:22-34"]}
{"id": "C384", "title": "RtlSignalBuilder: masked optional signals", "statement": "a | (b & ~bMask) and a & (b & ~bMask) can be built with any member missing, without an exception, with the value of the expression without the missing members.", "quantifier": "all optional signals and values", "why_tests_cant": "Claim about all combinations.", "anchors": ["hwtLib/logic/rtlSignalBuilder.py:49-71", "hwtLib/logic/rtlSignalBuilder.py:73-94"]}
{"id": "C385", "title": "USB agents: bulk transfer", "statement": "Data sent by an agent in packets of a size is received whole by the other agent, packets have at most this size and alternating PIDs, and no other sequence of packets is received as this data.", "quantifier": "all data, all positive packet sizes, all following packets", "why_tests_cant": "Claim about all lengths, the multiples of the packet size need an empty packet.", "anchors": ["hwtLib/peripheral/usb/sim/usb_agent_host.py:134-205", "hwtLib/peripheral/usb/sim/usb_agent_device.py:47-70"]}
{"id": "C386", "title": "USB agents: device descriptor", "statement": "The host agent downloads the device descriptor of a device with any valid packet size of the endpoint 0 (8, 16, 32, 64).", "quantifier": "all device descriptors and following descriptors", "why_tests_cant": "Tests use only the size 64.", "anchors": ["hwtLib/peripheral/usb/sim/usb_agent_host.py:114-132", "hwtLib/peripheral/usb/sim/usb_agent_host.py:310", "hwtLib/peripheral/usb/sim/usb_agent_device.py:125-128"]}
{"id": "C387", "title": "USB host agent: parser of the configuration", "statement": "The parser accepts exactly the concatenations of valid descriptors and returns these descriptors; functional descriptors only in a communication interface.", "quantifier": "all byte strings", "why_tests_cant": "Claim about all byte strings.", "anchors": ["hwtLib/peripheral/usb/sim/usb_agent_host.py:47-66", "hwtLib/peripheral/usb/sim/usb_agent_host.py:68-112"]}
{"id": "C388", "title": "USB agents: enumeration", "statement": "After the enumeration the host has exactly the descriptors of the device.", "quantifier": "all devices with any configurations and strings", "why_tests_cant": "Tests use one default device without strings.", "anchors": ["hwtLib/peripheral/usb/sim/usb_agent_host.py:299-354", "hwtLib/peripheral/usb/sim/usb_agent_device.py:85-140", "hwtLib/peripheral/usb/descriptors/bundle.py:106-132"]}
{"id": "C389", "title": "UTMI rx agents", "statement": "Packets given to the driver are the packets of the monitor, in the order and unchanged, without an assertion error, and each takes its length + 2 cycles.", "quantifier": "all schedules of non empty packets", "why_tests_cant": "Claim about all schedules.", "anchors": ["hwtLib/peripheral/usb/usb2/utmi_agent.py:60-116"]}
{"id": "C390", "title": "UTMI tx agents", "statement": "Packets given to the driver are the packets of the monitor, in the order and unchanged, and the handshake of the monitor satisfies the checks of the driver.", "quantifier": "all schedules of non empty packets", "why_tests_cant": "Claim about all schedules.", "anchors": ["hwtLib/peripheral/usb/usb2/utmi_agent.py:140-225"]}
{"id": "C391", "title": "RMII agents", "statement": "Frames appended to the driver are the frames of the monitor.", "quantifier": "all lists of frames", "why_tests_cant": "Claim about all lists of frames.", "anchors": ["hwtLib/peripheral/ethernet/rmii_agent.py:45-52", "hwtLib/peripheral/ethernet/rmii_agent.py:64-71", "hwtLib/peripheral/ethernet/rmii_agent.py:85-100"]}
{"id": "C392", "title": "DSP48E1 ALU computes the operations of the ALU_MODE table", "statement": "For each item of the table ALU_MODE the ALU of the DSP48E1 model, configured by the ALUMODE (and Y selection) of the item, computes exactly the expression in the key of the item modulo 2^48 for every operand X, Y, Z and carry in; for the addition of two operands the cascaded carry out is the carry of the 48 bit addition.", "quantifier": "all 14 operations, all 48 bit operands, every carry in", "why_tests_cant": "operands have 3*48 bits, tests use several random additions only", "anchors": ["hwtLib/xilinx/primitive/dsp48e1.py:327-341", "hwtLib/xilinx/primitive/dsp48e1.py:715-739", "hwtLib/xilinx/primitive/dsp48e1_constants.py:203-223"]}
{"id": "C393", "title": "DSP48E1 operand registers delay A and B by AREG and BREG", "statement": "For AREG and BREG 0, 1 and 2 the operand which is used by the ALU is the operand which was on the input in the AREG-th (BREG-th) last enabled clock cycle (the present one if 0).", "quantifier": "all register configurations, operand sequences, clock enable sequences, power-up contents", "why_tests_cant": "the delay has to hold for every pattern of clock enables", "anchors": ["hwtLib/xilinx/primitive/dsp48e1.py:385-412", "hwtLib/xilinx/primitive/dsp48e1.py:437-463"]}
{"id": "C394", "title": "Dsp48e1Add delivers sums of all accepted operands in order", "statement": "For every DATA_WIDTH, REG_IN and REG_OUT the stream of data on data_out is the stream of (a + b) mod 2^DATA_WIDTH of operands accepted on data_in, in order, nothing is lost, duplicated or added; at most stage_cnt items are inside.", "quantifier": "all widths, register configurations, handshake patterns, operands, power-up contents of data registers", "why_tests_cant": "unbounded number of DSPs and stages, carry goes through several clock cycles and the pipeline can be stalled in each of them", "anchors": ["hwtLib/xilinx/primitive/examples/dsp48e1Add.py:65-100", "hwtLib/xilinx/primitive/examples/dsp48e1Add.py:142-337"]}
{"id": "C395", "title": "Dsp48e1Add has fixed latency and accepts data every clock cycle if the consumer is ready", "statement": "If data_out.rd is always 1, each sum is delivered exactly stage_cnt clock cycles after its operands were accepted and data_in.rd is 1 in every clock cycle except of the first one after reset.", "quantifier": "all widths, register configurations, input patterns", "why_tests_cant": "all cycles of all executions", "anchors": ["hwtLib/xilinx/primitive/examples/dsp48e1Add.py:65-100", "hwtLib/xilinx/primitive/examples/dsp48e1Add.py:142-337"]}
{"id": "C396", "title": "MDIO agent stores every write frame and answers every read frame", "statement": "For any sequence of legal MDIO frames (at least 32 preamble bits, any number of idle bits, reads only of existing registers) the registers of MdioAgent are exactly what was written by the frames and the bits which the agent drives are, for each read, turnaround 1 0 and the 16 data bits of the last written value MSB first.", "quantifier": "all sequences of frames, addresses, data, preamble lengths, values of the line during the answer", "why_tests_cant": "unbounded sequences of frames, the parser has state shared between frames", "anchors": ["hwtLib/peripheral/mdio/intf.py:84-90", "hwtLib/peripheral/mdio/intf.py:105-126", "hwtLib/peripheral/mdio/intf.py:128-226"]}
{"id": "C397", "title": "MDIO agent accepts a frame only after a preamble of ones", "statement": "A register of MdioAgent is not changed by a bit sequence which does not contain 32 consecutive ones.", "quantifier": "all bit sequences", "why_tests_cant": "set of all bit sequences is infinite", "anchors": ["hwtLib/peripheral/mdio/intf.py:156-171"]}
{"id": "C398", "title": "Datapump simulation memory answers reads in order and at once", "statement": "A read request received by AxiDpSimRam is answered by the check which follows, after the answers of all previous requests: one word per requested word from consecutive cells, id of the request, last only in the last word, byte mask limited only in the last word. No word is added without a request; only a request which is not aligned or which reads a cell without a value ends with an exception.", "quantifier": "all runs, memory contents, requests (at most one read request between two changes of the clock), word sizes", "why_tests_cant": "unbounded runs and memory contents", "anchors": ["hwtLib/amba/datapump/sim_ram.py:71-89", "hwtLib/amba/datapump/sim_ram.py:91-131", "hwtLib/amba/datapump/sim_ram.py:137-172"]}
{"id": "C399", "title": "Datapump simulation memory performs writes in order", "statement": "After any run of AxiDpSimRam without an exception the acknowledged writes are a prefix of the received write requests in order, each consumed exactly its own data words, was aligned, made of whole words and framed by last; the memory is the initial contents overwritten by them in order. Every write whose words were received is acknowledged after one check per waiting request.", "quantifier": "all runs, memory contents, interleavings of requests and data words", "why_tests_cant": "unbounded interleavings of three queues", "anchors": ["hwtLib/amba/datapump/sim_ram.py:71-89", "hwtLib/amba/datapump/sim_ram.py:133-135", "hwtLib/amba/datapump/sim_ram.py:174-220"]}
{"id": "C400", "title": "Mi32 simulation memory is sequential", "statement": "Mi32SimRam processes requests in the order in which they were received, one per change of the clock: a read returns the value of the last write of the cell before it, cells have the value of the last processed write, everything received is processed; aligned whole word accesses of known cells are never refused.", "quantifier": "all runs, requests, memory contents", "why_tests_cant": "unbounded runs", "anchors": ["hwtLib/cesnet/mi32/sim_ram.py:21-56"]}
{"id": "C401", "title": "Mi32 agent transports every access", "statement": "Every item of a kind which Mi32AddrAgent.set_data supports (read, write, read and write at once) is put on the signals by the driver and the monitor gets the same mode, address, data and byte enable.", "quantifier": "all items and widths", "why_tests_cant": "set of items is infinite, the check is in a method borrowed from another bus", "anchors": ["hwtLib/cesnet/mi32/intf.py:128-191", "hwtLib/avalon/mm.py:166-184"]}
{"id": "C402", "title": "SPI agents: the slave receives what the master sends", "statement": "A SpiAgent driver with a chip select for each word of txData and a SpiAgent monitor on one bus: after eight clock periods per word and one more the monitor has exactly these words (low 8 bits) in rxData in order and their chip selects in chipSelects, and no slave is selected.", "quantifier": "all lists of words, chip selects (other than the idle value), initial values of the signals, data of the slave", "why_tests_cant": "unbounded lists of words", "anchors": ["hwtLib/peripheral/spi/intf.py:69-111", "hwtLib/peripheral/spi/intf.py:132-149"]}
{"id": "C403", "title": "SPI agents: the master receives what the slave sends", "statement": "A SpiAgent driver which clocks as many words as the SpiAgent monitor has in txData receives exactly the words of the monitor.", "quantifier": "all lists of words", "why_tests_cant": "the order of processes on one edge is not visible in a test of one agent only", "anchors": ["hwtLib/peripheral/spi/intf.py:117-130"]}
{"id": "C404", "title": "USB/IP server answers each URB once and in order", "statement": "For every byte stream which consists of well formed SUBMIT and UNLINK commands for attached devices, the bytes written by USBIPConnection are read by a client as exactly one reply per command, in the order of commands, with the sequence number, device id, direction and endpoint of the command and with the status and data of the simulated device, and the connection remains open.", "quantifier": "all sequences of commands, all field values, all payloads, all behaviours of the device which answers", "why_tests_cant": "a test sends a few commands; a framing error shows only for certain combinations of directions, lengths and following commands", "anchors": ["hwtLib/peripheral/usb/sim/usbip/connection.py:166-192", "hwtLib/peripheral/usb/sim/usbip/connection.py:194-294", "hwtLib/peripheral/usb/sim/usbip/connection.py:296-316", "hwtLib/peripheral/usb/sim/usbip/connection.py:318-348", "hwtLib/peripheral/usb/sim/usbip/connection.py:375-400"]}
{"id": "C405", "title": "USB/IP reply of a completed write reports the written length", "statement": "After a successful OUT transfer the actual_length of the RET_SUBMIT reply is the number of bytes which were sent to the device.", "quantifier": "all endpoints, all buffers", "why_tests_cant": "the client in the tests ignores the field; drivers in a kernel use it", "anchors": ["hwtLib/peripheral/usb/sim/usbip/connection.py:280-291", "hwtLib/peripheral/usb/sim/usbip/connection.py:239-252"]}
{"id": "C406", "title": "USB/IP reply of a read is not longer than the request", "statement": "The data of the RET_SUBMIT reply of an IN transfer has at most transfer_buffer_length bytes.", "quantifier": "all devices, endpoints and requested lengths", "why_tests_cant": "tests request the maximum packet size; a shorter request needs a device which answers with a longer packet", "anchors": ["hwtLib/peripheral/usb/sim/usbip/connection.py:266-278", "hwtLib/peripheral/usb/sim/usbip/device.py:224-241"]}
{"id": "C407", "title": "Data toggle of USB/IP OUT transfers", "statement": "A device which follows the data toggle rules of USB receives the bytes of all bulk OUT transfers, each once and in order.", "quantifier": "all sequences of buffers and all packet sizes", "why_tests_cant": "a test sends short buffers (one packet); the toggle breaks after a transfer with an even number of packets", "anchors": ["hwtLib/peripheral/usb/sim/usbip/device.py:223-229", "hwtLib/peripheral/usb/sim/usbip/device.py:243-252", "hwtLib/peripheral/usb/sim/usb_agent_host.py:182-205"]}
{"id": "C408", "title": "Data toggle of USB/IP IN transfers", "statement": "For every sequence of NAKs and data packets of a device which follows the data toggle rules, each bulk IN transfer returns the bytes of one packet (nothing for NAK) and the PID check of the host never fails.", "quantifier": "all sequences of answers of the device", "why_tests_cant": "needs all interleavings of NAKs and packets", "anchors": ["hwtLib/peripheral/usb/sim/usbip/device.py:227-241", "hwtLib/peripheral/usb/sim/usb_agent_host.py:134-180"]}
{"id": "C409", "title": "USB/IP device list is readable", "statement": "A client which reads the reply of OP_REQ_DEVLIST by the counts in it gets all the devices with the values of their descriptors and their interfaces and no bytes remain.", "quantifier": "all lists of devices and descriptors", "why_tests_cant": "the test device has one configuration without alternate settings", "anchors": ["hwtLib/peripheral/usb/sim/usbip/connection.py:49-103", "hwtLib/peripheral/usb/sim/usbip/connection.py:115-130", "hwtLib/peripheral/usb/sim/usbip/device.py:307-326"]}
{"id": "C410", "title": "USB/IP import", "statement": "OP_REQ_IMPORT with the bus id of a device from the list attaches this device, its id is accepted in URBs and its description is returned; with any other text the reply is ST_NA and nothing is attached.", "quantifier": "all lists of devices and all bus id texts", "why_tests_cant": "tests use one correct bus id", "anchors": ["hwtLib/peripheral/usb/sim/usbip/connection.py:132-164", "hwtLib/peripheral/usb/sim/usbip/connection.py:350-373"]}
{"id": "C411", "title": "Axi4SJoinPrioritized takes frames as a whole", "statement": "From reset and for all inputs the output of Axi4SJoinPrioritized sends exactly the words taken from the inputs in the same order; a frame of an input is never mixed with words of other inputs; a new frame begins on the input with the lowest number of those which have data.", "quantifier": "all numbers of inputs, all sequences of valid, ready, data and last", "why_tests_cant": "mixing of frames depends on all interleavings of valid and ready of all inputs", "anchors": ["hwtLib/amba/axis_comp/joinPrioritized.py:26-46", "hwtLib/handshaked/joinPrioritized.py:51-71"]}
{"id": "C412", "title": "Axi4SJoinPrioritized keeps a word which waits", "statement": "If the inputs keep their words until they are taken then the output of Axi4SJoinPrioritized keeps valid and data until ready (rule of AXI4-Stream).", "quantifier": "all numbers of inputs and all sequences", "why_tests_cant": "a test would have to delay ready exactly when an input with higher priority gets data", "anchors": ["hwtLib/amba/axis_comp/joinPrioritized.py:26-46", "hwtLib/handshaked/joinPrioritized.py:51-71"]}
{"id": "C413", "title": "filter_empty_in removes exactly the selected transfers of a recording", "statement": "For the recording of any USB/IP session the function returns the recording of the same session without exactly the SUBMIT commands whose seqnum is in the set and the IN transfers of endpoints other than 0 with an empty successful reply; each is removed with its body, data and reply; data which look like a header do not matter; no assertion fails.", "quantifier": "all sessions of commands of a correct client and operations, all replies, times and sets of seqnums", "why_tests_cant": "the unit test has one recording with nothing to remove", "anchors": ["hwtLib/peripheral/usb/sim/usbip/session_recorder.py:165-234", "hwtLib/peripheral/usb/sim/usbip/connection.py:172-192"]}
{"id": "C414", "title": "cut_off_empty_time_segments keeps the order of a recording", "statement": "After the segments of time are cut off a recording the items are the same and their times are still in order; a segment which contains a transaction is an error.", "quantifier": "all recordings in order of time and all lists of ordered segments", "why_tests_cant": "the unit test has one recording with no item inside of a segment", "anchors": ["hwtLib/peripheral/usb/sim/usbip/session_recorder.py:136-162"]}
{"id": "C415", "title": "agents of bidirectional ready/valid interfaces carry items in both directions", "statement": "After a number of handshakes the monitor has the items of the driver and the driver has (in dinData) the items of dinData of the monitor, for the agents of HwIORdVldSyncBiDirectionalData, HwIOAddrOutDataInRdVld, HwIOAddrInOutDataInRdVld and HwIOAddrInDataOutRdVld.", "quantifier": "all lists of items, all values on the signals before", "why_tests_cant": "tests use the agents against components, the driver of HwIOAddrInOutDataInRdVld is not used", "anchors": ["hwtLib/commonHwIO/addr_data_bidir.py:31-52", "hwtLib/commonHwIO/addr_data_bidir.py:77-100", "hwtLib/commonHwIO/addr_data_bidir.py:124-145", "hwtLib/handshaked/hwIOBiDirectional.py:56-76"]}
{"id": "C416", "title": "apply_write_with_mask writes exactly the bytes of the mask", "statement": "Byte k of the result of apply_write_with_mask is byte k of the new data if bit k of the mask is set, else byte k of the current data.", "quantifier": "all numbers of bytes, data and masks", "why_tests_cant": "tests see a few masks on one width", "anchors": ["hwtLib/amba/axi_comp/cache/utils.py:12-26"]}
{"id": "C417", "title": "extend_to_width_multiple_of_8 extends by zeros to whole bytes", "statement": "The result has the closest width which is a multiple of 8, its low bits are the signal and the others are 0.", "quantifier": "all widths and values", "why_tests_cant": "no test calls it", "anchors": ["hwtLib/amba/axi_comp/cache/utils.py:29-38"]}
{"id": "C418", "title": "the read port of CamWithReadPort can read every item", "statement": "For each index lower than ITEMS there is an address of the read port with this item on data.", "quantifier": "all numbers of items and contents", "why_tests_cant": "tests use one number of items", "anchors": ["hwtLib/amba/axi_comp/cache/utils.py:54-65"]}
{"id": "C419", "title": "tag, index and offset of cache addresses", "statement": "deparse_addr and parse_addr are inverse to each other, parse_addr_int agrees with parse_addr; two addresses have the same tag and index exactly if they are in the same aligned block of 2**OFFSET_W bytes; addr_in_data_array gives different addresses for different (way, index).", "quantifier": "all configurations with TAG_W > 0, all addresses and parts", "why_tests_cant": "tests use one configuration and a few addresses", "anchors": ["hwtLib/amba/axi_comp/cache/addrTypeConfig.py:40-78"]}
{"id": "C420", "title": "agents of interfaces with several signals carry tuples", "statement": "For each of the listed simulation agents the tuple which the driver writes by set_data is the tuple which the monitor reads by get_data, and the driver can be idle (set_data(None) is not an error).", "quantifier": "all tuples and all values on the signals before, all configurations of the interfaces", "why_tests_cant": "tests use each agent as driver or as monitor only", "anchors": ["hwtLib/mem/fifoDrop.py:50-67", "hwtLib/mem/hashTable_intf.py:27-59", "hwtLib/mem/hashTable_intf.py:97-128", "hwtLib/mem/hashTable_intf.py:150-192", "hwtLib/mem/cuckooHashTable_intf.py:87-109", "hwtLib/commonHwIO/addr_data.py:91-147"]}
{"id": "C421", "title": "EthernetMac adds the checksum of each frame", "statement": "The deparser of the transmit path gets the CRC of every frame taken from eth.tx, in the order of frames and once, also if it takes it later than the end of the frame; it is offered from the clock of the last word until it is taken.", "quantifier": "all frames, all stalls, all CRC configurations, all contents of registers after power up; the deparser takes the checksum before data of the next frame", "why_tests_cant": "stalls between the last word and the checksum are hard to hit by tests", "anchors": ["hwtLib/peripheral/ethernet/mac.py:205-266", "hwtLib/logic/crc.py:88-129"]}
{"id": "C422", "title": "Packets of USB agents survive the bus", "statement": "For every token, data packet and handshake parse_packet of the other side returns the packet given to deparse_packet, with the UTMI and with the ULPI agent; two packets never have the same bytes; a flipped bit in the PID byte of a UTMI packet is always refused.", "quantifier": "all packets (12 PIDs, 128 addresses, 16 endpoints, payloads of any length and content), all bits of the PID byte", "why_tests_cant": "payloads are unbounded, a test tries a few packets", "anchors": ["hwtLib/peripheral/usb/usb2/utmi_usb_agent.py:31-81", "hwtLib/peripheral/usb/usb2/ulpi_usb_agent.py:18-31", "hwtLib/peripheral/usb/sim/agent_base.py:43-55"]}
{"id": "C423", "title": "USB agents accept only packets", "statement": "What parse_packet accepts are the bytes which deparse_packet makes for the returned packet. (Code: a handshake followed by any bytes is accepted as the handshake.)", "quantifier": "all byte strings", "why_tests_cant": "the set of wrong byte strings is unbounded", "anchors": ["hwtLib/peripheral/usb/usb2/utmi_usb_agent.py:42-43", "hwtLib/peripheral/usb/usb2/utmi_usb_agent.py:47-53", "hwtLib/peripheral/usb/usb2/ulpi_usb_agent.py:18-25"]}
{"id": "C424", "title": "A recorded USB/IP session can be replayed", "statement": "The recording contains the communication of the server in order, the recorded reads are what the client sent, and the same server passes the replay of the recording without an exception (debug off).", "quantifier": "all servers (trees of reads and writes), all client inputs, all times", "why_tests_cant": "sessions are unbounded, the test replays one stored file", "anchors": ["hwtLib/peripheral/usb/sim/usbip/session_recorder.py:25-46", "hwtLib/peripheral/usb/sim/usbip/session_recorder.py:71-109", "hwtLib/peripheral/usb/sim/usbip/connection.py:375-400"]}
{"id": "C425", "title": "The replay finds a wrong answer", "statement": "If the replay of a session ends without an exception, the server did exactly the communication of the recording. (Code: assertions of the replayer are caught in connection(), only the assertion of close() that nothing is left is raised, thus a wrong last answer is not found.)", "quantifier": "all servers and recordings", "why_tests_cant": "absence of a missed error for all servers can not be tested", "anchors": ["hwtLib/peripheral/usb/sim/usbip/session_recorder.py:97-109", "hwtLib/peripheral/usb/sim/usbip/connection.py:385-400"]}
{"id": "C426", "title": "The hash table of counters is linearizable", "statement": "With any order and timing of the memory, every SWAP, LOOKUP_OR_SWAP and LOOKUP of OooOpExampleCounterHashTable works on the value after all the operations written before it: the stored item, the returned item and key_match are those of the documentation of OPERATION, and dataOut shows exactly the finished operations in order. (Code: needs a write history of at least WRITE_TO_WRITE_ACK_LATENCY + 2 items; with the default configuration a key is inserted twice.)", "quantifier": "all sequences of operations, keys, memory contents, delays of the memory, widths of the counter, lengths of the pipeline", "why_tests_cant": "collisions of operations in flight with any timing can not be enumerated", "anchors": ["hwtLib/examples/axi/oooOp/counterHashTable.py:65-134", "hwtLib/examples/axi/oooOp/counterHashTable.py:154-162", "hwtLib/examples/axi/oooOp/counterHashTable.py:185-264", "hwtLib/amba/axi_comp/oooOp/outOfOrderCummulativeOp.py:78-82"]}
{"id": "C427", "title": "A lookup without a match is not written", "statement": "OooOpExampleCounterHashTable writes to the memory exactly the operations except of LOOKUP whose key was not found, in the order of operations; one write response is taken for each finished written operation and none for the others; and after these writes the memory has the values which all the operations computed, although an operation which was not written may miss in the write history. (Code: needs a write history of at least WRITE_TO_WRITE_ACK_LATENCY + 2 items as C426.)", "quantifier": "all sequences of operations, keys, memory contents, delays of the memory, widths of the counter, lengths of the pipeline", "why_tests_cant": "a canceled write leaves the pipeline without the history, which matters only with a collision at a specific clock cycle", "anchors": ["hwtLib/examples/axi/oooOp/counterHashTable.py:175-183", "hwtLib/amba/axi_comp/oooOp/outOfOrderCummulativeOp.py:470-490", "hwtLib/amba/axi_comp/oooOp/outOfOrderCummulativeOp.py:533-553"]}
{"id": "C428", "title": "RX_CMD of the ULPI agent carries the state of PHY", "statement": "RX_CMD built by the agent of PHY and parsed by the agent of the link gives the link the state of Vbus, RxActive and RxError of PHY, for every previous state of the link. (Code: build_RX_CMD uses ~ on ints, which is always true, so RxActive and RxError are always reported as 0.)", "quantifier": "all states of PHY and of the link", "why_tests_cant": "the unit tests never set the receive flags; the expression has to be checked for all combinations", "anchors": ["hwtLib/peripheral/usb/usb2/ulpi_agent.py:48-72", "hwtLib/peripheral/usb/usb2/ulpi_agent.py:74-116"]}
{"id": "C429", "title": "ULPI agents transport packets in both directions", "statement": "With the agent of PHY (driver) connected to the agent of the link (monitor), no exception is raised, packets given to each of them arrive at the other complete, in order, and after enough clock cycles all of them arrive. (Code: holds if both agents are always enabled; an agent of PHY which is disabled for one clock cycle loses a byte of a packet.)", "quantifier": "all packets, times when they are added, sequences of clock cycles", "why_tests_cant": "tests use a few lengths of packets added before the start", "anchors": ["hwtLib/peripheral/usb/usb2/ulpi_agent.py:121-245", "hwtLib/peripheral/usb/usb2/ulpi_agent.py:247-338"]}
{"id": "C430", "title": "Cache returns reads with the same id in order", "statement": "Words for reads with the same id are returned on s.r in order of the reads, each read gets its word at most once and none is lost. (Code: a read which hits is answered from the data array with priority, so it overtakes an older read with the same id which missed and waits for the memory; AXI ordering is violated. The order holds among hits and among misses, and for a master which has no hit and miss with the same id outstanding together.)", "quantifier": "for each sequence of inputs, each latency of the data array and each memory which keeps the AXI ordering", "why_tests_cant": "The order depends on the latency of the memory and on the state of the cache, unit tests use few latencies.", "anchors": ["hwtLib/amba/axi_comp/cache/cacheWriteAllocWawOnlyWritePropagating.py:162-228"]}
{"id": "C431", "title": "Each read hit increments the LRU record once", "statement": "A read which hits increments the LRU record of its set exactly once. (Code: lru_incr is not a part of the handshake of the read: the increment is lost when the LRU array is not ready and it is repeated in each cycle in which the read waits for the data array.)", "quantifier": "for each sequence of inputs", "why_tests_cant": "Needs all interleavings of stalls of the data array and of the LRU array.", "anchors": ["hwtLib/amba/axi_comp/cache/cacheWriteAllocWawOnlyWritePropagating.py:154-160", "hwtLib/amba/axi_comp/cache/cacheWriteAllocWawOnlyWritePropagating.py:190-207"]}
{"id": "C432", "title": "USB virtual COM port: GET_LINE_CODING returns the line coding", "statement": "The host which sends GET_LINE_CODING to Usb2CdcVcp gets the 7 bytes of the line coding. (Code: the address of the line coding in the ROM is the number of descriptors instead of the number of their bytes; for each device with at least 7 descriptors the host gets a part of descriptors which does not depend on the line coding.)", "quantifier": "for each bundle of descriptors, line coding, packet size, state in which the request comes and timing of the host", "why_tests_cant": "Depends on sizes of all descriptors; the tests do not check the answer to this class request.", "anchors": ["hwtLib/peripheral/usb/usb2/device_cdc_vcp.py:53-63", "hwtLib/peripheral/usb/usb2/device_cdc_vcp.py:65-75", "hwtLib/peripheral/usb/usb2/device_common.py:51-59"]}
{"id": "C433", "title": "USB: string read by the host is the string of the bundle", "statement": "GET_DESCRIPTOR for the string k is answered by bytes of the k-th string descriptor of the bundle (composition of the ROM compiler, its table and the control endpoint). (Code: descr_addr has 8 bits, the end of a string after the address 255 is read from the begin of the ROM.)", "quantifier": "for each bundle of descriptors, each string, packet size, state in which the request comes and timing of the host", "why_tests_cant": "All bundles; the tests use one with a ROM under 256 bytes.", "anchors": ["hwtLib/peripheral/usb/usb2/device_common.py:51-59", "hwtLib/peripheral/usb/usb2/device_common.py:80-100", "hwtLib/peripheral/usb/descriptors/bundle.py:194-206"]}
{"id": "C434", "title": "7 segment display shows the digit", "statement": "With the documented numbers of segments (dataOut[k] is the segment k, active in 0) the display shows the digit on dataIn and it is off for 10 to 15. (Code: the bits are in the reversed order, the segment k is dataOut[6-k]; connected as documented, 2 is shown as 5.)", "quantifier": "for each value of dataIn and each segment", "why_tests_cant": "There is no test of this component; the claim is about the documented meaning of pins.", "anchors": ["hwtLib/peripheral/displays/segment7.py:16-32", "hwtLib/peripheral/displays/segment7.py:42-70"]}
{"id": "C435", "title": "Endpoints are discovered at the address where they are accessed", "statement": "Every endpoint which AddressSpaceProbe.walkToConverter yields is yielded with the bus address at which an access of the master arrives at address 0 of this endpoint, whatever bridges, interconnects, remaps and adders are on the way.", "quantifier": "all trees of bridges, interconnects, remaps, adders and endpoints, all start offsets", "why_tests_cant": "The tests of the library start the discovery directly on the bus of one endpoint; no test has a remap or an interconnect in the path.", "anchors": ["hwtLib/abstract/discoverAddressSpace.py:79-126", "hwtLib/abstract/busStaticRemap.py:37-41"]}
{"id": "C436", "title": "The discovered type describes the address space of the interface", "statement": "If the discovery returns a type then the registers of it are accessed through the interface at their addresses in this type; a bus with more endpoints is refused with an exception.", "quantifier": "all trees of bridges, interconnects, remaps, adders and endpoints, all sizes of the endpoint", "why_tests_cant": "The tests discover one endpoint at address 0; that the offset is dropped can not be seen there.", "anchors": ["hwtLib/abstract/discoverAddressSpace.py:68-77", "hwtLib/abstract/discoverAddressSpace.py:136-145"]}
{"id": "C437", "title": "Builders give components fresh names", "statement": "The search of a name of a component ends for every parent; the name is not an attribute of the parent; the components which a builder adds in any sequence get different names and replace no attribute.", "quantifier": "all sets of attributes of the parent, all states of the builder, all sequences of requests", "why_tests_cant": "Tests build a few components with different names; collisions with arbitrary attributes and arbitrary sequences can not be enumerated.", "anchors": ["hwtLib/abstract/componentBuilder.py:81-108", "hwtLib/abstract/streamBuilder.py:65"]}
{"id": "C438", "title": "USB versions are converted to numbers and back", "statement": "USB_VER.to_uint16_t accepts only versions with one decimal digit on both sides of the point and gives their binary coded decimal; USB_VER.from_uint16_t gives different strings for different numbers and is the inverse.", "quantifier": "all strings, all 16 bit numbers", "why_tests_cant": "The only test converts the version 1.1.", "anchors": ["hwtLib/peripheral/usb/constants.py:52-58", "hwtLib/peripheral/usb/constants.py:61-71"]}
{"id": "C439", "title": "The USB/IP server lists devices of every version", "statement": "A device whose descriptor was made for any of USB_VER.values is listed by the USB/IP server, with the USB/IP number of the speed of this version.", "quantifier": "all versions of the library and all numbers in bcdUSB", "why_tests_cant": "The tests of the server use one device of USB 2.0.", "anchors": ["hwtLib/peripheral/usb/sim/usbip/connection.py:57", "hwtLib/peripheral/usb/sim/usbip/constants.py:29-35", "hwtLib/peripheral/usb/sim/usbip/device.py:91-93"]}
{"id": "C440", "title": "USB descriptors have the layout of the standard", "statement": "Every make_usb_descriptor_* and make_descriptor_functional_* function and the line coding give exactly the bytes of the tables of USB 2.0, HID and CDC for its arguments, with the length in the first byte and the type in the second one, and raise exactly if an argument does not fit its field, the packet size is not in the list or a version is not accepted.", "quantifier": "all arguments of all functions, all numbers of languages and of slave interfaces", "why_tests_cant": "Tests compare a few descriptors with constants; they do not cover the ranges of the fields and the order of bits in packed fields.", "anchors": ["hwtLib/peripheral/usb/descriptors/std.py:113-144", "hwtLib/peripheral/usb/descriptors/std.py:230-256", "hwtLib/peripheral/usb/descriptors/std.py:366-394", "hwtLib/peripheral/usb/descriptors/cdc.py:225-238", "hwtLib/peripheral/usb/descriptors/hid.py:85-104"]}
{"id": "C441", "title": "USB descriptors announce valid packet sizes", "statement": "The descriptors which are made announce only packet sizes of USB 2.0: 8, 16, 32 or 64 for endpoint 0, 8, 16, .. 512 for the bulk endpoints of the virtual COM port.", "quantifier": "all arguments of make_usb_descriptor_device and get_default_usb_cdc_vcp_descriptors", "why_tests_cant": "Tests use the size 64 or 512.", "anchors": ["hwtLib/peripheral/usb/descriptors/std.py:122", "hwtLib/peripheral/usb/descriptors/cdc.py:302-317", "hwtLib/peripheral/usb/descriptors/cdc.py:328"]}
{"id": "C442", "title": "The announced power is sufficient", "statement": "The value of usb_format_bMaxPower in units of 2 mA is not below the asked current.", "quantifier": "all currents", "why_tests_cant": "Only the constant 500 is used.", "anchors": ["hwtLib/peripheral/usb/descriptors/std.py:200-203"]}
{"id": "C443", "title": "Requests of descriptors name the asked descriptor", "statement": "wValue of make_usb_device_request_get_descr has the type of the descriptor in the upper byte and its index in the lower one.", "quantifier": "all types and all indexes", "why_tests_cant": "Tests ask for indexes up to 3.", "anchors": ["hwtLib/peripheral/usb/descriptors/std.py:438-470"]}
{"id": "C444", "title": "The descriptors of the virtual COM port are consistent", "statement": "For every version, packet size and strings which are accepted: the host finds the descriptors in the bytes of the ROM by their lengths, wTotalLength, bNumInterfaces, bNumEndpoints and bNumConfigurations are the actual ones, bulk endpoints have the asked packet size, and the indexes of the strings in the device descriptor are those of the given strings.", "quantifier": "all arguments of get_default_usb_cdc_vcp_descriptors", "why_tests_cant": "Tests use one set of arguments; the host of the simulation does not check the numbers.", "anchors": ["hwtLib/peripheral/usb/descriptors/cdc.py:241-346"]}
{"id": "C445", "title": "Static loop control executes the body for every index from ITERATIONS - 1 to 0", "statement": "After each accepted start, the transactions on body carry the indexes ITERATIONS - 1 down to 0 in this order, unless bodyBreak ends the loop; the next start is accepted only after the loop ended.", "quantifier": "all ITERATIONS > 0, all sequences of valid/ready/break inputs from reset", "why_tests_cant": "The number of executed iterations depends on arbitrary interleavings of handshakes and breaks over an unbounded run; the test samples the index port in every clock, including the clock with index 0 in which body.vld is 0, and always ready without breaks.", "anchors": ["hwtLib/examples/statements/forLoopCntrl.py:36-61"]}
{"id": "C446", "title": "Both state machine examples show which input was set last", "statement": "After any inputs from reset, dout of FsmExample and of HadrcodedFsmExample is 1, 2 or 3 when the last clock with a or b set had only a, only b, or both (1 without such a clock); so the two are interchangeable. HadrcodedFsmExample has a defined output after one clock from any of its 8 states.", "quantifier": "all input sequences, all states of the 3 bit register", "why_tests_cant": "Equivalence of two sequential circuits over input sequences of any length; the test of the examples applies one sequence of 8 inputs.", "anchors": ["hwtLib/examples/statements/fsm.py:28-53", "hwtLib/examples/statements/fsm.py:66-99"]}
{"id": "C447", "title": "Flags of TwoCntrs compare the numbers of enabled clocks modulo 256", "statement": "After any inputs from reset, eq, ne, lt and gt are the comparison of the numbers of clocks with a_en and with b_en, both modulo 256; hence of the numbers themselves while both are below 256. Exactly one of eq, lt, gt is set and ne is the negation of eq.", "quantifier": "all input sequences, all register values", "why_tests_cant": "The comparison must hold after runs of any length including wraps of either counter.", "anchors": ["hwtLib/examples/arithmetic/twoCntrs.py:30-46"]}
{"id": "C448", "title": "BYTES_IN_TRANS encodes the largest AXI transfer which is not larger than the word", "statement": "For n > 0 bytes BYTES_IN_TRANS(n) is the largest k with 2**k <= n; 2**k is n exactly for powers of two; the value fits the 3 bits of the size signal exactly for 1 to 255 bytes.", "quantifier": "all numbers of bytes", "why_tests_cant": "The test checks the eight widths of AXI; it does not tell what other widths, which the components accept, lead to.", "anchors": ["hwtLib/amba/constants.py:11-13"]}
{"id": "C449", "title": "getSizeWidth is wide enough for the number of bytes of the longest burst", "statement": "The number of bytes of maxLen + 1 words is representable in getSizeWidth(maxLen, dataWidth) bits.", "quantifier": "all maxLen, all widths of data of whole bytes", "why_tests_cant": "The test checks one pair; rounding of both logarithms matters for all pairs.", "anchors": ["hwtLib/amba/axi_comp/interconnect/base.py:8-11"]}
{"id": "C450", "title": "create_addr_req of the AXI3 and AXI4 agents drives every signal with its argument", "statement": "The tuple created by create_addr_req has one value for each signal of the agent and the signal driven with it is the one of the argument; the default size is the one of a whole word; a user value is refused exactly if there is no user signal.", "quantifier": "all arguments, all ID_WIDTH, DATA_WIDTH, USER_WIDTH", "why_tests_cant": "The order of the tuple and of the signals are written in two places and depend on parameters; tests use few configurations.", "anchors": ["hwtLib/amba/axi3.py:63-100", "hwtLib/amba/axi4.py:37-76", "hwtLib/amba/axi_common.py:19-21"]}
{"id": "C451", "title": "AxiBuilder.buff_cdc gives each clock port the frequency of the clock connected to it", "statement": "After buff_cdc the ports clk and m_clk of the component have FREQ of the clocks connected to them; accepted are the depths 1 and 2**k + 1.", "quantifier": "all frequencies, all depths", "why_tests_cant": "The frequency is used for constraints only, a simulation does not see it; the builder method has no test.", "anchors": ["hwtLib/amba/axi_comp/builder.py:69-98", "hwtLib/amba/axi_comp/buff_cdc.py:29-45"]}
{"id": "C452", "title": "The bridge made by AxiBuilder.to_avalon_mm can express every burst of AXI", "statement": "With MAX_BURST of to_avalon_mm, burstCount of every burst of 1 to 2**LEN_WIDTH words is its number of words; a signal with one bit less could not hold it.", "quantifier": "all LEN_WIDTH, all lengths", "why_tests_cant": "The longest burst is the corner case where the width matters; the argument has to hold for each LEN_WIDTH.", "anchors": ["hwtLib/amba/axi_comp/builder.py:140-144", "hwtLib/avalon/axiToMm.py:72-73", "hwtLib/avalon/axiToMm.py:240-240", "hwtLib/avalon/mm.py:62-62"]}
{"id": "C453", "title": "AxiBuilder.to_axi ends with an interface of the class which was asked for", "statement": "to_axi(axi_cls, id_width) makes the end of the builder an interface of axi_cls, for each class of AXI at the end.", "quantifier": "all pairs of Axi3Lite, Axi4Lite, Axi3, Axi4 and all id_width", "why_tests_cant": "The tests use one pair; the result depends on attributes read later in the elaboration of the chosen bridge.", "anchors": ["hwtLib/amba/axi_comp/builder.py:118-134", "hwtLib/amba/axi_comp/to_axiLite.py:59-72", "hwtLib/amba/axiLite_comp/to_axi.py:48-66", "hwtLib/amba/axi_common.py:19-21"]}
{"id": "C454", "title": "AxiBuilder.resize gives the asked widths and makes a component only if needed", "statement": "After resize the end has the asked widths of address and data, a width which is not given is kept, a resizer is made exactly if a width differs; a repeated call makes none.", "quantifier": "all widths, given or not", "why_tests_cant": "Depends on combinations of given and omitted arguments with each relation to the current widths.", "anchors": ["hwtLib/amba/axi_comp/builder.py:100-116"]}
{"id": "C455", "title": "CHECK of each CRC configuration is the checksum of 123456789", "statement": "For each class of crcPoly.py with the attribute CHECK, the CRC with its WIDTH, POLY, INIT, REFIN, REFOUT and XOROUT of the ASCII text 123456789 is CHECK, as in the catalogue the file refers to.", "quantifier": "all configurations of the library", "why_tests_cant": "The tests of the CRC component use a few configurations and none reads CHECK.", "anchors": ["hwtLib/logic/crcPoly.py:1-31", "hwtLib/logic/crcPoly.py:75-82"]}
{"id": "C456", "title": "RESIDUE of each CRC configuration is what a receiver finds after any message with its checksum", "statement": "For each class of crcPoly.py with the attribute RESIDUE and each message, the register after the message followed by its checksum, reflected if REFOUT is set, is RESIDUE.", "quantifier": "all configurations of the library, all messages of any length", "why_tests_cant": "A statement about all messages; tests can feed some only.", "anchors": ["hwtLib/logic/crcPoly.py:1-31", "hwtLib/logic/crcPoly.py:93-104", "hwtLib/logic/crcPoly.py:394-405"]}
{"id": "C457", "title": "Each CRC configuration of the library finds every burst error of up to WIDTH bits", "statement": "For each class of crcPoly.py, inverting some bits within WIDTH consecutive bits of a message, or of a message with its checksum, changes the final register, and for a message its checksum. POLY, INIT and XOROUT fit to WIDTH.", "quantifier": "all configurations, all messages of any length, all positions and contents of a burst", "why_tests_cant": "Unbounded number of messages and error patterns; a mistyped POLY would still pass tests which compare with itself.", "anchors": ["hwtLib/logic/crcPoly.py:22-453"]}
{"id": "C458", "title": "Axi4SBuilder.startOfFrame marks exactly the first words of frames", "statement": "From reset, for any gaps of valid and ready, the returned signal is 1 on the first transferred word of each frame and 0 on all its other words; between words it tells if the next word starts a frame.", "quantifier": "all input sequences, all numbers and lengths of frames, also with an unfinished frame", "why_tests_cant": "All interleavings of handshakes and frames of any length; no test reads the signal alone.", "anchors": ["hwtLib/amba/axis_comp/builder.py:55-67"]}
{"id": "C459", "title": "Fields of the IPv4, IPv6 and TCP headers are the bits of the standards", "statement": "For every packet, each field of IPv4Header_t, IPv6Header_t, TCP_header_t and TCP_flags_t has the value which the RFC gives to the field of that name (after the order of bytes is reversed, if it is a field of whole bytes), and the constants IP_FLAGS name the bits of RFC 791.", "quantifier": "all packets (value of each bit of each byte), all fields", "why_tests_cant": "A test parses packets made by the same struct, so both sides agree on a wrong place of a bit.", "anchors": ["hwtLib/types/net/ip.py:46-61", "hwtLib/types/net/tcp.py:7-28", "hwtLib/types/net/ip.py:16-18"]}
{"id": "C460", "title": "Fields of Ethernet, 802.1Q, UDP, ARP and ICMP headers are the bytes of the standards", "statement": "For every packet, each field of the Ethernet, 802.1Q, UDP (with both pseudo headers), ARP and ICMP structs has the value which the standard gives to the field of that name, after the order of bytes is reversed; the structs have the size of the standards and no other fields.", "quantifier": "all packets, all fields", "why_tests_cant": "A test parses packets made by the same struct, so both sides agree on a wrong place of a field.", "anchors": ["hwtLib/types/net/ethernet.py:11-35", "hwtLib/types/net/udp.py:7-26", "hwtLib/types/net/arp.py:49-59", "hwtLib/types/net/icmp.py:5-15"]}
{"id": "C461", "title": "Ethernet addresses written as text are read back", "statement": "eth_addr_parse of eth_addr_format of an address of 6 bytes is that address, so different addresses have different texts; each text which eth_addr_parse accepts gives an address of 6 bytes.", "quantifier": "all addresses, all texts", "why_tests_cant": "2^48 addresses.", "anchors": ["hwtLib/types/net/ethernet.py:53-64"]}
{"id": "C462", "title": "Fields of rte_mbuf are at the documented offsets", "statement": "Each named field of rte_mbuf is at the offset and has the size of its comment, and the struct has the documented size of 128 bytes.", "quantifier": "all fields", "why_tests_cant": "There is no test of it; the layout is shared with C code which is not in the repository.", "anchors": ["hwtLib/types/net/dpdk.py:9-42"]}
{"id": "C463", "title": "Commands of ULPI are decoded as they were made", "statement": "ULPI_TX_CMD.USB_PID(pid) is recognised by is_USB_PID and get_USB_PID gives the pid back, for every 4 bit pid; nothing else is recognised, in particular neither REGW(a), REGR(a) for any address nor NOPID; the two highest bits give the kind of a register command and the rest its address; the extended commands do not collide with a register.", "quantifier": "all bytes, all pids, all addresses", "why_tests_cant": "Only a few pids and no register commands are ever used in tests.", "anchors": ["hwtLib/peripheral/usb/usb2/ulpi.py:19-89"]}
{"id": "C464", "title": "Addresses of ULPI registers and their set and clear addresses", "statement": "ULPI_REG has the addresses of ULPI 1.1; all addresses with those for set and clear are different; set_of(a) is a+1 and clr_of(a) is a+2 exactly for the registers which have them.", "quantifier": "all addresses, all calls", "why_tests_cant": "No test calls these functions.", "anchors": ["hwtLib/peripheral/usb/usb2/ulpi.py:96-153"]}
{"id": "C465", "title": "Fields of the control registers of a USB PHY are the bits of the standard", "statement": "For every value of the function control, interface control, OTG control and interrupt registers each field is the bits which ULPI 1.1 has for it; a byte made from values of fields gives them back; the values after a reset are 0x41 and 0x06.", "quantifier": "all values of registers, all values of fields", "why_tests_cant": "Simulated PHY and the converter share these structs, so a wrong place of a bit is not seen.", "anchors": ["hwtLib/peripheral/usb/usb2/utmi.py:63-101", "hwtLib/peripheral/usb/usb2/ulpi.py:156-177"]}
{"id": "C466", "title": "Control characters of XGMII are detected in each lane", "statement": "The detector of a lane is 1 exactly if the control bit of the lane is set and its byte is the wanted character, for every word and every width; no byte is detected as two characters; an alignment of packets is accepted exactly if it divides the number of lanes.", "quantifier": "all widths, words, characters and alignments", "why_tests_cant": "2^72 words.", "anchors": ["hwtLib/peripheral/ethernet/xgmii.py:34-70"]}
{"id": "C467", "title": "Registers with an asynchronous reset, the latch and the double data rate register keep the right sample", "statement": "After any sequence of edges of the clock and changes of inputs: AsyncResetReg and DReg_asyncRst output the input of the last rising edge, or 0 if there was a reset since; DDR_Reg outputs the inputs of the last rising and of the last falling edge; LatchReg outputs its input of the last moment it was enabled.", "quantifier": "all sequences of events", "why_tests_cant": "Most of them are only compared with a stored RTL text, and there are infinitely many sequences.", "anchors": ["hwtLib/examples/mem/reg.py:64-105", "hwtLib/examples/mem/reg.py:133-171"]}
{"id": "C468", "title": "DReg and DoubleDReg delay by one and two clocks", "statement": "The output of DReg is its input one clock before and of DoubleDReg two clocks before, 0 if there was a reset in the clocks between, from any state.", "quantifier": "all sequences of inputs, all states", "why_tests_cant": "Infinitely many sequences.", "anchors": ["hwtLib/examples/mem/reg.py:17-61"]}
{"id": "C469", "title": "LeadingZero finds the lowest zero bit", "statement": "If some of the 64 bits of the input is 0, the output is the index of the lowest one.", "quantifier": "all inputs", "why_tests_cant": "2^64 inputs; the test only compares the RTL text.", "anchors": ["hwtLib/examples/rtlLvl/arithmetic/leadingZero.py:11-29"]}
{"id": "C470", "title": "Accepted parameters of MMCME2_ADV are legal", "statement": "If no check of MMCME2_ADV raises, then the frequency of each used input is between 10 and 1066 MHz, of the oscillator between 600 and 1600 MHz, dividers, multipliers and phases are in their ranges, and the high and low time of each output fits the counters (64.5 and 64 cycles).", "quantifier": "all configurations", "why_tests_cant": "Infinitely many configurations; the checks interact (fractional divider, duty cycle).", "anchors": ["hwtLib/xilinx/primitive/mmcme2.py:83-110", "hwtLib/xilinx/primitive/mmcme2.py:201-276"]}
{"id": "C471", "title": "Legal parameters of MMCME2_ADV are accepted", "statement": "Each legal configuration in which at least one of the two clock inputs is used (the other has the period 0) passes all checks of MMCME2_ADV.", "quantifier": "all legal configurations", "why_tests_cant": "Infinitely many configurations.", "anchors": ["hwtLib/xilinx/primitive/mmcme2.py:201-276"]}
{"id": "C472", "title": "connect_to_HwIOMonitor drives each signal once from the same path", "statement": "connect_to_HwIOMonitor(src, dst) for interfaces succeeds exactly if for each signal of dst there is a signal of the same type on the same path of src. Then the assignments are one for each signal of dst, in order, from the signal on the same path of src. More children of src are ignored.", "quantifier": "all interface trees in which the children of an interface have different names and no interface is without children", "why_tests_cant": "The recursion runs over arbitrary nesting, tests use a few interfaces.", "anchors": ["hwtLib/abstract/hwIOMonitor.py:114-135"]}
{"id": "C473", "title": "monitor_of copies an interface", "statement": "monitor_of an interface whose children have different names succeeds (including its declaration) exactly if no nested interface is without children; the monitor has the same signals with the same types, and the interface can be connected to it such that each signal is driven exactly once.", "quantifier": "all interface trees", "why_tests_cant": "Arbitrary nesting.", "anchors": ["hwtLib/abstract/hwIOMonitor.py:43-51", "hwtLib/abstract/hwIOMonitor.py:83-93"]}
{"id": "C474", "title": "connect_HwIOMonitor drives the signals of the same path", "statement": "connect_HwIOMonitor(src, dst) succeeds exactly if for each signal of the monitor src the interface dst has a signal of the same width on the same path. Then there is one assignment for each signal of src, to the signal on the same path of dst.", "quantifier": "all interface trees in which the children of an interface have different names and no interface is without children", "why_tests_cant": "Arbitrary nesting.", "anchors": ["hwtLib/abstract/hwIOMonitor.py:96-111"]}
{"id": "C475", "title": "RAM made of LUTs returns the last written bit", "statement": "The output of RAMnX1S for an address is the data of the last rising edge (falling edge with IS_WCLK_INVERTED) of wclk with we at that address, and the bit of INIT if there was none; a5..a0 are the bits of the address, a5 the most significant one.", "quantifier": "all INIT values, all sequences of events, all addresses", "why_tests_cant": "Unbounded histories of writes.", "anchors": ["hwtLib/mem/lutRam.py:38-58"]}
{"id": "C476", "title": "SimpleSyncRam reads before it writes", "statement": "The output of SimpleSyncRam after a rising edge is the data of the last earlier write of the read address, or the initial content without such write; the write of the same edge is not seen.", "quantifier": "all sequences of inputs", "why_tests_cant": "Unbounded histories of writes.", "anchors": ["hwtLib/examples/mem/ram.py:41-48"]}
{"id": "C477", "title": "connect_to_HwIOMonitor with a struct drives the members of the signals of the source", "statement": "connect_to_HwIOMonitor(src, dst) for dst of a struct type succeeds exactly if for each signal of src the struct has a member of the same type on the same path; there is one assignment for each signal of src. Members without a signal in src are silently left without a driver, for an interface dst this case is an error.", "quantifier": "all interface trees in which the children of an interface have different names and no interface is without children", "why_tests_cant": "Arbitrary nesting.", "anchors": ["hwtLib/abstract/hwIOMonitor.py:114-120", "hwtLib/abstract/hwIOMonitor.py:127"]}
{"id": "C478", "title": "AXI-Lite memory space master aligns the queues", "statement": "After any calls of _write and _read of AxiLiteMemSpaceMaster the address and the data of the k-th write stand at position k of the queues aw and w, the address of the k-th read at position k of ar, and a callback is registered with number k+1 exactly if the k-th read (from zero) has this callback.", "quantifier": "all sequences of calls, AXI3-Lite and AXI4-Lite", "why_tests_cant": "Unbounded sequences of interleaved calls.", "anchors": ["hwtLib/amba/axiLite_comp/sim/memSpaceMaster.py:26-69"]}
{"id": "C479", "title": "A memory space master which raises leaves no request", "statement": "A call of _write or _read of a memory space master with one request queue which raises NotImplementedError does not change the queue, any other call appends exactly one request.", "quantifier": "all calls and queue contents, Mi32, BRAM port and Avalon-MM", "why_tests_cant": "All states of the queue; the raising paths are not tested.", "anchors": ["hwtLib/cesnet/mi32/mi32SimMemSpaceMaster.py:14-28", "hwtLib/mem/bramPortSimMemSpaceMaster.py:11-25", "hwtLib/avalon/sim/memSpaceMaster.py:17-40"]}
{"id": "C480", "title": "Queues of a memory space master tell the calls", "statement": "Two sequences of calls (without callbacks) of a memory space master which lead to the same queues are the same: no argument and no order is lost.", "quantifier": "all pairs of sequences of calls", "why_tests_cant": "Injectivity over unbounded sequences.", "anchors": ["hwtLib/cesnet/mi32/mi32SimMemSpaceMaster.py:14-28", "hwtLib/mem/bramPortSimMemSpaceMaster.py:11-25", "hwtLib/avalon/sim/memSpaceMaster.py:17-40", "hwtLib/amba/axiLite_comp/sim/memSpaceMaster.py:48-69"]}
{"id": "C481", "title": "HandshakedFifo can be built for all documented parameters", "statement": "HandshakedFifo with DEPTH>=2, any EXPORT_SIZE, EXPORT_SPACE and INIT_DATA of length <= DEPTH elaborates without an exception; the inner fifo and the output register have place for DEPTH words, the initial words are kept and all counts fit in the signals size and space. Depths 0 and 1 are rejected.", "quantifier": "all values of parameters", "why_tests_cant": "All depths, combinations of exports are not tested.", "anchors": ["hwtLib/handshaked/fifo.py:52-93", "hwtLib/handshaked/fifo.py:113"]}
{"id": "C482", "title": "HandshakedFifo rejects INIT_DATA longer than DEPTH", "statement": "HandshakedFifo with INIT_DATA longer than DEPTH fails with the AssertionError of its declaration; accepted data fit in the inner fifo and the output register.", "quantifier": "all depths and lengths", "why_tests_cant": "All depths and lengths.", "anchors": ["hwtLib/handshaked/fifo.py:58-69"]}
{"id": "C483", "title": "HsFifoAsync can be built for DEPTH 2^k+1", "statement": "HsFifoAsync is accepted exactly for DEPTH = 2^k + 1, also with EXPORT_SIZE and EXPORT_SPACE, and INIT_DATA are stored as for HandshakedFifo.", "quantifier": "all values of parameters", "why_tests_cant": "All depths; exports and initial data are not tested.", "anchors": ["hwtLib/handshaked/fifoAsync.py:29-62", "hwtLib/mem/fifoAsync.py:31-37", "hwtLib/handshaked/fifo.py:113"]}
{"id": "C484", "title": "setEnable of the AXI agent reaches all channels", "statement": "After setEnable(en) of the composite agent of AXI-Lite the agents of all channels (which exist for HAS_R, HAS_W) have the flag en, other channels are unchanged.", "quantifier": "all sequences of setEnable calls of the composite agent and of channels, all HAS_R, HAS_W", "why_tests_cant": "Unbounded sequences of calls.", "anchors": ["hwtLib/amba/axi3Lite.py:226-264"]}
{"id": "C485", "title": "Drivers and monitors of the AXI agent are complementary", "statement": "getDrivers and getMonitors of the composite agent contain each existing channel exactly once, with opposite roles; the master drives ar, aw, w and monitors r, b. create_addr_req uses an existing address channel, it fails only without HAS_R and HAS_W.", "quantifier": "all HAS_R, HAS_W, all channels", "why_tests_cant": "Partial interfaces (only reads, only writes) are not tested.", "anchors": ["hwtLib/amba/axi3Lite.py:266-293"]}
{"id": "C486", "title": "IpifAgent in the role of a memory answers after its latency", "statement": "A read (a write of a whole word) at an aligned address which is held on the bus is finished after exactly READ_LATENCY + 1 (WRITE_LATENCY + 1) cycles; the read returns the word of the memory, the write changes this word only, so a word is read as it was written last.", "quantifier": "all latencies, word widths, addresses, data and memory contents", "why_tests_cant": "All latencies and memory contents.", "anchors": ["hwtLib/xilinx/ipif/hIOIpif.py:135-148", "hwtLib/xilinx/ipif/hIOIpif.py:186-246"]}
{"id": "C487", "title": "IpifAgent acknowledges exactly finished operations", "statement": "After a clock cycle ip2bus_rdack (ip2bus_wrack) of the agent is 1 exactly if a read (write) was finished in this cycle.", "quantifier": "all reachable states, all inputs, all latencies", "why_tests_cant": "Back to back requests with latencies are not tested.", "anchors": ["hwtLib/xilinx/ipif/hIOIpif.py:188-246"]}
{"id": "C488", "title": "IpifAgent checks that a request is stable", "statement": "A change of the chip select, the direction, the address, or of the data or byte enables of a write during an operation is an error; a request which is held never fails the check.", "quantifier": "all states, inputs and latencies", "why_tests_cant": "Each moment of a change.", "anchors": ["hwtLib/xilinx/ipif/hIOIpif.py:248-272"]}
