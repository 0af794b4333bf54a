# Formal model of hwtLib (Lean 4)

The subject is the hwtLib repository pinned in `/repo`. It is a library of
hardware components written in a Python-embedded HDL (`hwt`). The code was read
as text only; it was neither built nor run.

## How the code is modelled

* A component is a synchronous (Mealy) machine: a state structure with one field
  per `_reg`/memory of the Python source, `out : State → In → Out` for the
  combinational logic, `next : State → In → State` for the register updates.
  `If/Elif/Else/Switch/SwitchLogic` become `if`/`match` in the same order, an
  unassigned register keeps its value.
* Histories are lists of per-cycle inputs; `trace` (Verif/Common.lean) unrolls a
  machine over such a list and records `(input, output)` per cycle. Properties
  speak about traces (what was transferred at the ports), not about registers.
* Data which the component only moves is an arbitrary type `α`; registers without
  reset value and memories start with an arbitrary content that is universally
  quantified. Arithmetic uses `Nat`/`BitVec` with explicit wrap-around where the
  register width matters.
* Python exceptions and assertions at elaboration time are values
  (`Option`/`Except`).
* Every definition cites the lines of `/repo` it was read from and says what was
  simplified.

## Trusted base

* The kernel of Lean 4.33.0 and the axioms reported by `#print axioms`. The
  property theorems depend on at most `propext`, `Classical.choice`, `Quot.sound`;
  no own axiom, no `sorry`, no `native_decide`, no `bv_decide`.
* The reading of the Python source: that the Lean definitions say what the cited
  lines say.
* The semantics of `hwt` (not part of the repository): registers update
  simultaneously on the clock edge, `If/Elif` are prioritised, later assignments
  win, unassigned registers hold, `Concat(a, b)` has `a` in the high bits,
  `x[hi:lo]` is the half-open slice, `log2ceil(0)=log2ceil(1)=1`.
* Helpers of external packages: `pyMathBitPrecise` (`bit_list_reversed_*`,
  `get_bit_range`, `int_list_to_int`, `mask`) and `pycocotb`/`hwtSimApi` are read
  by their documented meaning.
* Not modelled: X-propagation of the simulator except where a value is explicitly
  undefined (`None`, then `Option`), synchronous reset during operation (histories
  start in the reset state), physical timing, metastability (a synchroniser
  register is a register), code generation, simulation agents.

## Property plan

Files are under `lean/Verif/`. `X.lean` holds the model and lemmas, `XProps.lean`
the property theorems (statement, non-vacuity example, and counterexample theorem
where the code violates the property).

| id | model | proof idea |
|----|-------|------------|
| C01-C04 | Fifo: pointers, loop flag, memory, output register, counters | invariant relating pointers to a queue (`wr = (rd+len) mod DEPTH`, loop flag iff wrapped), induction over the history; C04 fails for `len(INIT_DATA)=DEPTH` (witness) and is proved for shorter |
| C05-C08 | HandshakedFifo built on the Fifo model | refinement to a queue whose head is the output register |
| C09, C11, C12 | HandshakedReg stages, chain of n | each stage conserves words; composition by induction on n; C12 fails for m<n (witness), proved for m=n and m=0 |
| C10 | two-register ready chain break | invariant on reader_prio; refinement to a queue |
| C13, C14 | StreamNode as functions of lists of interfaces | boolean algebra over lists; C14 fails (witness), `_partial` when extraConds are given for all interfaces |
| C15, C16, C21 | combinational split/join | list lemmas |
| C17, C18 | join with rotating priority | one-hot invariant; C18 fails for a correlated consumer (witness), proved for an always ready consumer |
| C19, C20 | split fair | as C17; C20 fails (witness), partial when the prioritised output is ready |
| C22 | select register + router | conservation of both streams |
| C23, C24 | resizer | phase counter invariant; C24 fails (witness), partial for an always ready consumer |
| C25 | stored burst | index invariant |
| C26 | RAM read/write port adapter with one cycle latency RAM | queue of pending answers |
| C27, C28 | FifoDrop | invariant with committed and stashed parts; C27, C28 fail at wrap/any write (witness), partial |
| C29 | FifoCopy | invariant with frame start |
| C30 | FifoAsync with two clocks as event list | monotone history: pointers as unbounded counters, synchronised copies are earlier values; gray injectivity |
| C31 | FifoArray | linked list invariant; fails for append=0 (witness), partial |
| C32, C33 | RAM | last-write semantics, slicing lemma |
| C34 | RamXor | fails (witnesses), partial for separated accesses |
| C35, C36 | Cam | map semantics; C36 fails for ITEMS=2^k+1 |
| C37 | Flip register/counter | invariant |
| C38-C40 | CRC xor matrix | matrix rows are linear functionals; loop invariant: row functional = serial register bit; C40 fails for non palindromic XOROUT |
| C41 | gray code | bit lemmas |
| C42, C43 | BCD converters | double dabble invariant on decimal digits |
| C44, C45 | encoders | induction on width |
| C46 | bitonic sorter | 0-1 principle or direct induction on bitonic sequences |
| C47 | LFSR | explicit inverse |
| C48 | Axi4S_en | fails (witness), partial |
| C49 | Axi4S_resizer | byte stream invariant |
| C50 | BusStaticRemap | arithmetic over regions |
| C51, C52 | interconnect configuration | list/graph invariants |
| C53, C54 | SimRam | allocator invariant, loop invariant |
| C55 | HandshakedFifo with INIT_DATA | refinement to a queue; fails for DEPTH-1 and DEPTH initial words |
| C56 | ExclusiveStreamGroups | boolean algebra over lists |
| C57, C58 | FifoDrop | witnesses; partial by the C27 invariant |
| C59, C74 | FifoCopy | C29 invariant; gating lemma for refused requests |
| C60, C61 | FifoAsync | C30 invariant; progress by counting clock edges |
| C62 | BcdToBin counter width | arithmetic |
| C63, C64 | CRC | remainder in GF(2)[x]; frames as words plus a masked tail |
| C65 | interconnect address width | bit length lemmas |
| C66, C67 | SimRam | loop invariants |
| C68 | Fifo, refused requests | gating lemma; fails for a refused write with a read (witness) |
| C69, C70 | timers | every register is a function of the number of enabled cycles since reset; sharing gives divisibility |
| C71-C73 | UartTx, UartRx | state is a function of the number of cycles since the start bit; composition |
| C75, C76 | HandshakedCdc with two clocks as an event list | ten phases of a transfer; every event keeps the state in this set; C75 fails for a stalling consumer (witness) |
| C77-C79 | Cdc, CdcPulseGen, VldSyncedCdc | ordinals of sampled values in the register chain; number of changes in flight; C79 fails (witnesses) |
| C80 | PseudoLru | tree as list, induction on the recursion of node_selected_mask, finite states for 4 ways |
| C81 | PseudoLru | case split on the three bits; bit 2 of 2^k-2 and 2^k-3 for the assertion |
| C82 | FifoOoo | life of an item folded from the trace; invariant: allocated iff between the pointers |
| C83 | FifoOoo | same invariant with lock flags |
| C84 | FifoOoo | lock stays until confirm; concrete run for the missed item |
| C85 | FifoOoo | log2 characterisation |
| C86 | AxiWDispatch | numbered requests/answers/beats, invariant ties read_data, backup and pending to numbers |
| C87 | AxiWDispatch | invariant: offset 0 and no address |
| C88-C89 | Mi32.ToAxi | conservation of requests per channel |
| C90-C92 | Mi32.FromAxi | conservation through the address and data registers |
| C93 | Mi32.Endpoint | one step |
| C94-C95 | AddrDecode | arithmetic of prefixes and ranges |
| C96-C98 | LiteEndpoint | conservation of requests, read data followed through the states |
| C99-C100 | AxiToLite.Split | conservation of words |
| C101 | AxiToLite.Group | tags of beats zipped with responses |
| C102-C104 | SlaveTimeout | countdown |
| C105-C107 | Mdio | state as a function of the position in the packet, run lemma inside of one packet |
| C108, C109 | Mdio | concrete runs for the negation, position invariant for what holds |
| C110 | Spi | reset equation as a function of the assumed reset; concrete state without solution, independence of the reset if all timers share the end of word counter |
| C111 | Spi | whole state as a function of the position in the word (wait/data/done), ghost prefix of sent and received bits |
| C112 | Spi | witness with two back to back words; wait phase keeps the clock high |
| C113 | I2c | independent bus listener run in lockstep, invariant per state of the machine |
| C114 | I2c | invariant: SDA never high, filter monotone, no stop condition; concrete contention |
| C115 | I2c | witness; two runs with the same commands in lockstep |
| C116 | I2c | two runs which differ only in SDA have the same dout |
| C117 | RamTrans | conservation of beats and addresses, memory = fold of the beats (WInv) |
| C118 | RamTrans | position invariant of a flush write (FPos) |
| C119 | RamTrans | queue of words in flight = requests expanded to words (qd/todo), drain measure |
| C120 | Datapump | invariant: words of bursts so far = words of accepted requests + part of the current one |
| C121 | DatapumpRW | finished bursts, j words of the first unfinished one; fifo = info of unfinished bursts |
| C122 | DatapumpRW | sticky flag, two runs which differ in the status only |
| C123 | DatapumpRW | as C121; bInfoFifo = last flags of finished bursts without response; counting of marks |
| C124 | DatapumpRW | sticky flag over all requests |
| C125 | Datapump | each burst is a slice of one request |
| C126 | Datapump | arithmetic of parameters |
| C127 | AxiMatrix | requests of the address crossbar over the trace; the slave port sequence equals the filtered sequence of handovers |
| C128 | AxiMatrixRun | XInv: both order FIFOs are views of one list of accepted requests; burst positions by prophecy of the slave bursts |
| C129 | AxiMatrixRun | the oldest request not finished is the head of both of its FIFOs |
| C130 | AxiMatrixRun | the write data crossbar is the same machine with the directions exchanged; responses are bursts of one word |
| C131 | AxiMatrixProps | no slave is selected by an unmapped address; the rotating priority reaches each master |
| C132 | AxiMatrixProps | witness with two masters; stability of valid |
| C133 | AxiMatrixProps | arithmetic of log2ceil |
| C134 | ReorderBuffer | item number of the input by counting the ids; invariant: count of id = number of reads + occupied |
| C135 | ReorderBuffer | one address per cycle while the next word is present, two cycles to drain |
| C136 | StrictOrder | join selects exactly one input, push, sent and handed agree in each cycle |
| C137 | StrictOrder | invariant: given words ++ rest of open bursts = bursts tagged by owners, fifo = owners of open bursts |
| C138 | StrictOrder | the same per driver; owners = acknowledged ++ ack fifo ++ order fifo |
| C139 | SplitJoin | priority rotates in a stall: negation by witness; one valid input: the data are that of this input |
| C140 | ArrayItemGetter | stream of answers equals stream of pushed sub-indexes; word slicing lemma for 2^k byte items; witness for bytes |
| C141 | LinkedListReader | invariant relates the pending request to a position in the list; fixed environment answer list |
| C142 | LinkedListReader | distance of pointers in the ring is the number of items available and not requested |
| C143 | LinkedListReader | case analysis on the invariant |
| C144 | LinkedListWriter | invariant on baseIndex by snoc induction; run over two nodes |
| C145 | LinkedListWriter | words to be sent yet as a function of state and counter; witness with stall |
| C146 | LinkedListWriter | space by pointers plus items of the open request is constant; ring arithmetic lemmas |
| C147 | LinkedListWriter | fifo conservation |
| C148 | LinkedListWriter | silent continuation keeps the buffer empty; induction on timeout counter |
| C149 | ArrayBuffWriter | offset is total requested mod ITEMS; witnesses by parameters |
| C150 | ArrayBuffWriter | words to be sent yet from state and counter, acknowledged prefix of requests |
| C151 | ArrayBuffWriter | counter of the burst is at most the number of items in the buffer |
| C152 | ArrayBuffWriter | one step |
| C153 | Mmu | queues hold the addresses on the way while there is no segfault; afterwards nothing moves to physOut |
| C154 | Mmu | witness; requests are a prefix of the addresses |
| C155 | Mmu | same invariant; 2·(before level 2)+(in level 2) decreases in each quiet cycle |
| C156 | FramePack | conservation |
| C157 | FramePack | frame_word = words of the open frame |
| C158 | FramePack | witness; counter runs down to zero |
| C159 | FramePack | witness; counter + idle cycles ≥ IN_TIMEOUT-1 |
| C160 | SlrCrossing | address = number of stalls in the last three cycles; words on the way are output register, unread part of the shift register and source register |
| C161 | SlrCrossing | one step |
| C162 | Booth | A·2^i + P = M·(Q mod 2^i − q_1·2^i) and the range of A given by q_1 |
| C163 | Booth | counter |
| C164 | CumMask | witness; content = fold of writes |
| C165 | CumMask | preloaded word is the stored one because the write is held |
| C166 | LocalLink | inverse of the case tables |
| C167 | LocalLink | induction on the stream |
| C168 | FrameGen | counter = l - k mod (l+1) |
| C169 | FrameGen | one step |
| C170 | AxisStoredBurst.lean | reuses the burst machine of C25 over the elaborated word table; negation by the default configuration |
| C171 | FifoMeasuring.lean | invariant: delivered words ++ fifo = pushed words, pushed sizes = map of frames; arithmetic of Concat(length, rem) |
| C172 | FifoMeasuring.lean | same invariant, plus the position of added last |
| C173 | FooterSplit | Ghost annotation (bytes before/after) of every word in the register chain; conservation of the chain (Q_step) and invariant of footer flags; per-frame lemma shows that emitted words are the two parts |
| C174 | FooterSplit | Negation by a two word frame; the offers depend only on the ready of the other output; blocked state is closed under steps with both readys low |
| C175 | RmiiRx | Symbol-level machine; lemma per byte (P.run), header, payload with pending byte, gap; induction over frames |
| C176 | RmiiRx | Negation with a period lemma for gaps of any length; positive part from the data and error modes |
| C177 | RmiiRx | Mode after the wrong header byte is error; run in error mode |
| C178 | RmiiRx | Negation by a frame of 5 symbols; positive part from C175 |
| C179 | AxiToAvmm | invariant: performed reads ++ request in the address register = accepted requests |
| C180 | AxiToAvmm | invariant with the list of complete bursts; negation: write next to a blocked read is performed without accepting AW |
| C181 | AxiToAvmm | invariant: capacity + words not returned = depth, data without size never visible; negation: truncated length |
| C182 | AxiToAvmm | negation; last word is accepted only together with the response |
| C183 | AvmmToAxi | per-clock simulation of a parser of the accepted requests |
| C184 | AvmmToAxi | negation + output equations |
| C185 | AvmmToAxi | negation; invariant: no write burst started |
| C186 | AvmmToAxi | arithmetic of log2ceil |
| C187 | StreamToMem | invariant: transfers ++ rest of the copy determined by the state = started copies |
| C188 | StreamToMem | bits of the read value |
| C189 | StreamToMem | count of bursts and last words from C187 |
| C190 | StreamToMem | divisibility of the addresses from C187 |
| C191 | AxiResize | address buffer and align fifo as lists, history invariant; arithmetic of the lanes |
| C192 | AxiResize | same invariant with the selection of the lane |
| C193 | AvmmBuff | HandshakedFifo/HandshakedReg conservation composed |
| C194 | AvmmBuff | inner fifo has at most one word if it is always read |
| C195 | AvmmBuff | independence of outputs by induction |
| C196 | AvmmBuff | queue length of C193 with the exactness of ready |
| C197 | UsbSieRx.front | snoc induction: state of the two stage pipeline vs packets on UTMI |
| C198-C201 | UsbSieRx.hmachine | relation between the parser state and the bytes of the current packet; headers = flatMap of a spec function; corollaries and witnesses |
| C202-C205 | FrameParser | invariant: word index, part registers and was_consumed flags vs words of the current frame; bits of parts = bits of the frame |
| C206 | FrameParser | induction over the waiting cycles |
| C207 | FrameDeparser | invariant: number of read values of each field is determined by number of sent words, sent bits are bits of offered items (taken + waiting); negation by a 4+8 bit struct |
| C208 | FrameDeparser | corollary of C207 if no two fields mix |
| C209 | FrameDeparser | one step |
| C210 | FrameDeparser, FrameParser | bits of the parser frame are bits of the sent words |
| C211 | AxiLiteIpif | conservation of requests/data between AXI and IPIF |
| C212 | AxiLiteIpif | conservation of acknowledges |
| C213 | AxiLiteIpif | invariant dataRegR_vld=0, one step; number of requests minus answers from the state |
| C214 | IpifEndpoint.sys (AxiLiteIpif + IpifEndpoint) | relation of both FSM states to the replay of accepted requests |
| C215 | IpifEndpoint | one step |
| C216 | IpifEndpoint.sys | the state with an address outside is closed; latency from C214 |
| C217 | CacheTagArray | invariant: output register of memory is the record unless written in the previous cycle |
| C218 | CacheTagArray | conservation |
| C219 | CacheTagArray | witness; invariant from C217 |
| C220 | CacheWrite (tag array, victim stage, LRU handshake) | records of tag array = owners of places computed from the transactions, lines in pipeline are of different sets |
| C221 | CacheWrite.sys | victim_req_tmp.vld = st0.vld and need |
| C222 | CacheWrite | conservation |
| C223 | Buff (HsReg, HsFifo) | conservation of queues of a channel, generic projection of a machine |
| C224 | Buff | stability of the register chain and the FIFO head |
| C225 | Buff | conservation; content of the delay line |
| C226 | Mi32Bus (BusMap) | aligned power of two regions, prefix comparison equals interval |
| C227 | Mi32Bus (HsFifo) | reads = answered ++ last read; witnesses for latency 0 and 2 |
| C228 | Mi32Bus | history of the offset |
| C229 | Mi32Bus | bound of the offset, explicit accesses |
| C230 | IpifBus | invariant over the last cycle of the trace |
| C231 | IpifBus | unfolding of two cycles |
| C232 | IpifBus (Mi32Bus) | disjoint regions |
| C233 | MemEndpoint | value of a place = last write in the history |
| C234 | MemEndpoint | relation Shows kept while the address is stable |
| C235 | LruArray | conservation |
| C236 | LruArray | pending request and read port; witness with a stall |
| C237 | LruArray | pairwise over ports |
| C238 | LruArray | first port of the set writes, masks merged |
| C239 | Utmi (SieTx.conv) | packets of both sides defined by folds over the port trace; invariant relates them through last_delayed |
| C240 | Utmi (Ulpi) | case analysis of the driver enable; negation by a register write |
| C241 | Utmi (Ulpi) with PHY and UTMI observers | invariant over adapter, PHY decoder and UTMI framing |
| C242 | Utmi (Ulpi) with PHY registers | invariant extends C241: pending flag or register equal |
| C243 | Utmi (Ulpi) | unfolding of two steps, invariant active implies dirq |
| C244 | Utmi (Ulpi) | decode of all 16 codes; stickiness by induction |
| C245 | Utmi (SieTx) | invariant over all continuations |
| C246 | Cuckoo | observer map over ports; invariant: items at their hash, key in at most one table, stash and memory together are the map; step lemma for each FSM state |
| C247 | Cuckoo | negation by a run; same invariant with free place |
| C248 | Cuckoo | negation by a run; corollary of C246 |
| C249 | Cuckoo | measure decreasing in each clock cycle |
| C250 | Cuckoo | negation by a run; corollary of C246 |
| C251 | Cuckoo | invariant of the counter of lookups |
| C252 | OooOp | observer lists; reads = stages ++ writes, writes = stages behind ++ dataOut |
| C253 | OooOp | list of computed values; forwarding searches a prefix of it; read data = snapshot not older than the history; bound on acknowledges while the item waits; negations by runs |
| C254 | OooOp | free clock cycles shift the pipeline |
| C255 | OooOp | induction: both ready low forever; negation |
| C256 | ReadAgg | Port observer (pending, reads in progress, answers); invariant: valid items are exactly the started pending requests, chains of wait are injective and ranked, the tail of the chain is the only match |
| C257 | ReadAgg | Corollary of the invariant: without a match no started request has the line |
| C258 | ReadAgg | The root of each chain is either in progress or in the buffer; the offered read has no match in the next cycle |
| C259 | ReadAgg | Finding: answers are copied to requests accepted after the data were received; invariant on the line of the buffered word for the partial |
| C260 | ReadAgg | Finding: unbounded chain of copies starves m.r; number of pending requests as a measure for the partial |
| C261 | Axi4sBytes | Recursion over words; lemma for words after the first, then the first word with the offset |
| C262 | Axi4sBytes | Finding: receiver rejects an empty first word |
| C263 | Axi4sBytes | Description of accepted frames by induction; finding: holes in keep are accepted |
| C264 | Axi4sBytes | Undefined bytes appear exactly with an offset or padding |
| C265 | BusRam | testBit of the byte loop by induction on the number of bytes; negations on two concrete cells |
| C266 | BusRam | induction on transactions, memory agrees bit by bit with a specification memory |
| C267 | BusRam | shifted value has no bits under the mask |
| C268 | BusRam | testBit of the first word; negation on a 32b word |
| C269, C270 | AxisFifoCopy | invariant of FifoCopy with position of the reader, observer of frames on the ports |
| C271 | AxisFifoCopy | register = word of the observer |
| C272, C273 | AxisFifoDrop | FifoDrop invariant for a shadow state with qualified commit; pointers are same |
| C274 | EpBuffers.rxNext | observer per endpoint from the core port; refinement to AxisFifoDrop.InvD, hold covers an error word which waits |
| C275 | EpBuffers | all conditions of others are skipped |
| C276 | EpBuffers.txNext | refinement to AxisFifoCopy.InvC and count of marks = count of last words not sent |
| C277 | EpBuffers.txNext | bound of the copy fifo; no mark while no last word |
| C278 | UsbNego.next | counter = min 2^14 (number of SE0 at the end of the history) |
| C279 | UsbNego.next | timer in WAIT_RST is not above the number of SE0 at the end |
| C280 | UsbNego.next | two values of the timer in SEND_CHIRP_K related to the number of cycles in the state |
| C281 | UsbNego.next | timer as a ranking function; saturation below the limit for the negation |
| C282 | UsbNego.next | chirp counter is not above the number of line changes |
| C283 | UsbEpFsm | Observer computes expected toggles from ports; invariant toggle register = expected toggle, pid in TX_DATA = toggle of the endpoint. Negation: two IN tokens without ACK. |
| C284 | UsbEpFsm | Observer flags bad/done of the packet after the last token; invariant of RX_DATA/TX_HANDSHAKE. Transaction with old toggle ends in idle with nothing sent. |
| C285 | UsbEpFsm | Witness IN token with error answered by NACK; invariant: after token with error the state is not RX_DATA/TX_DATA (buffers not selected, C275). |
| C286 | UsbEpFsm | Witness; step from idle. |
| C287 | UsbEpFsm | Witness; induction on waiting for SIE. |
| C288 | UsbEpFsm | RX_DATA_IGNORE_NO_RESP is left only by end of data: induction; step from idle. |
| C289 | UsbEpFsm | Invariant on tx_pid per state. |
| C290 | UsbEp0 | Observer of bytes of requests; invariant: request register = packet, usb_addr_next = address of SET_ADDRESS in stages which can end by STATUS_IN. |
| C291 | UsbEp0 | Induction on cycles with state after j words (len = n-j, cntr = j mod max). Stuck: (cntr+len) mod max = 0 is invariant and excludes the exit condition. |
| C292 | UsbEp0 | Witness; get_core used with length of the string. |
| C293 | UsbEp0 | Witness; composition with UsbEpFsm: ep0_stall is ORed to tx_stall. |
| C294 | UsbEp0 | Witness, inductions on waiting. |
| C295 | UsbEp0 | decode_conf: case analysis of decode on request bytes. |
| C296 | UsbEp0 | Stuck invariant with len = 0. |
| C297 | UsbEp0 | Decode of bRequest 11. |
| C298 | UsbEp0 | Witness; induction on bytes. |
| C299 | UsbCrc (Crc of hwtLib + order of bits of the field) | residual iff the sent bits are the inverted register, MSB first; compare with the sent bits |
| C300 | UsbCrc | field equality as numbers; burst detection of C63 |
| C301 | UsbCrc.naive | relation of the accumulator to the shift register (reflected: mirrored index) |
| C302 | UsbCrc.agentToken/agentData | C301 + residual characterisation |
| C303 | StrFormat: items, string memory, digit multiplexers, BinToBcd, main_st/char_i | composed system with string sources (string, character positions); invariant: outs = complete frames ++ complete items ++ part of the current item, positions of sources before/at/after the current item, BCD converter holds the argument or is idle |
| C304 | StrFormat | measure of the BCD converter (INPUT_WIDTH+1 / INPUT_WIDTH-cnt / 0) |
| C305 | StrFormat.parse: tokens of re.split, state of the parser | recursion over characters; error for adjacent equal braces; round trip for brace free texts |
| C306 | StrFormat.maxChars | counterexample with an endless run (invariant char_i < 2), pairwise condition for the positive part |
| C307 | StrFormat | printf by Nat.toDigits; witness runs; digitsOf = zero padded toDigits |
| C308 | Pid: registers u, y0, y1, wrapped arithmetic | unrolled sum with delayed inputs |
| C309 | Ripple: full adders and the carry chain | induction over the width: val s + 2^n co = val a + val b + ci |
| C310 | FlipRam over Ram (RamSingleClock) | one step; witness of a flip after the request |
| C311 | FlipRam | refinement to two separate RAMs |
| C312 | PolyStr: re.findall of the term expression, dictionary of coefficients | round trip of rendered CRC polynomials; witnesses |
| C313 | Ping.checksum | ones' complement sum of RFC 1071 as the independent specification |
| C314 | Ping: registers of the responder, abstract frame parser/deparser (word counters) | composed system with source of frames; invariant: while a reply is sent the parser is before a frame and the registers hold the request |
| C315 | FrameJoinReg: registers data/keep/relict/last, load conditions, masks | tokens (bytes and ends of frames): taken ++ content' = content ++ accepted in every step; witness for 3 registers |
| C316 | FrameAlign: loop over lengths with the set of offsets | offsets are periodic from the first repeated one; pigeonhole bounds the number of passes |
| C317 | FrameAlign: frames of ByteSrcInfo, packing of words | loop invariant of words; packing keeps the flattened list |
| C318 | FrameAlign: get_bytes_in_frame_info, get_important_byte_cnts | words of a frame by arithmetic; representative of each length; witnesses 4..5 bytes in 2-byte words, 10 bytes from offset 2 in 4-byte words |
| C319 | FrameJoinFsm: patterns, conditions, grouping of values, SwitchLogic; generator of the table (compared with the 11 reference tables of the unit tests) | merge of two patterns which do not differ gives a content which enables both; exactly one enabled transition determines every grouped value |
| C320 | FrameJoin (registers of FrameJoinReg + table of FrameJoinFsm), observers with tokens of all ports | a decidable check of a table (events of a transition consume inputs in order, selected bytes are the consumed ones, masks keep order) is sound: invariant consumed ++ contents of registers = accepted; kernel evaluation for configurations |
| C321 | FrameJoin | negation: concrete 3 cycles to a state in which no transition is possible for any further input; default configuration: abstraction to control bits (only they matter, agree_next), finite check in the kernel |
| C322 | Axi4sEq | invariant of index and state register against the words of the open frame; number of words equal to the parts of the value iff number equal (number_iff); negation by a frame of one byte |
| C323 | Axi4sEq | negation by a stall in the first word |
| C324 | EthMacRx (composition of models Axi4sEq, FooterSplit, AxisFifoDrop, HsFifo) | negation by evaluation of a frame of 64 bytes (EthMacRxEval: evaluation which computes registers after each step, proved equal); partial: simulation relation Sim with the invariants of the components |
| C325 | EthMacRx | as C324, error in the 20th byte |
| C326 | EthMacRx | as C324, three frames, noninterference statement; the state Dead is closed under all inputs |
| C327 | EthMacRx | as C324, fifo of 64 words |
| C328 | EthMacRx | Dead after two frames |
| C329 | EthMacRx | Dead after a stall of one cycle |
| C330 | WriteAgg.lean | invariant WriteAggInv/WriteAggStep over pointers, memory, dispatcher; writes are never merged (cam_found is never 1) |
| C331 | WriteAgg.lean | invariant over the id in w_in_reg and the response buffer |
| C332 | WriteAgg.lean | concrete run, negation |
| C333 | WriteAgg.lean | concrete run, negation |
| C334 | WriteAgg.lean | from the invariant of C330 |
| C335 | StoreQueue | conservation through the two stage pipeline, both chains have the same occupancy |
| C336 | StoreQueue, StoreQueueInv | the write is the last one in w_in_reg or item invariant JInv says it is in its slot until the response |
| C337 | StoreQueue, StoreQueueInv | case split on the source of the data, slot invariant for the data memory |
| C338 | StoreQueue | witness with two items of a line |
| C339 | StoreQueue | witness with a partial strobe |
| C340 | Hd44780 | witness of 4 idle cycles; in power up k = cycles / P |
| C341 | Hd44780, Hd44780Inv, Hd44780Reach | queue of not yet done commands, invariant Known: done ++ queue = commands of the text |
| C342 | Hd44780Reach | en is high only for LCD ticks 1..5 of a command, head of the queue does not change |
| C343 | Hd44780Live | decreasing measure: commands left * bound + LCD ticks left * P + wait |
| C344 | Hd44780Props | screen after commands of one character by case, composition over expand |
| C345 | DbgMon | words of a number joined are the number modulo, bytes round trip, disjoint parts of the address space |
| C346 | DbgMon | packing of adjacent fields, induction over interface and forest; witness with a late child |
| C347 | DbgMon | as C346 with data cut to the size of the roots; witness |
| C348 | DbgMon | shape of the output does not depend on data |
| C349 | DbgMon | case split; witness |
| C350 | StrbStash | relation of byte mask and bits, invariant of the merging loop |
| C351 | StrbStash | enables in the dictionary belong to equal masks; witnesses |
| C352 | StrbStash | uniform masks survive the conversion to a truth value; witness |
| C353 | HwExc | case split per cycle, induction over the run |
| C354 | HwExc | pending register = raise without rd since, induction by last cycle |
| C355 | HwExc | witness |
| C356 | HwExc | witnesses; registers stay clear with ready handlers |
| C357 | HwExc | dead states are closed and silent |
| C358 | HwExc | witness; dead states accept only 2 |
| C359 | AddrDataAxi | counter invariant over runs; witness |
| C360 | AddrDataAxi | arithmetic of bit slices; witness |
| C361 | AddrDataAxi | intervals of whole steps are disjoint; witness |
| C362 | AddrDataAxi | aligned intervals stay in a page; witness |
| C363 | MemSpace | mutual induction over types; intervals of registers |
| C364 | MemSpace | bits of the mask; witness and general negation |
| C365 | StructRw | induction over the run with the pending address; writer simulated by the reader |
| C366 | StructRw | arithmetic of words and bytes; witnesses |
| C367 | StructRw | counting invariant over index, queue and acknowledges; witness |
| C368 | StructRw | induction by last cycle; witness |
| C369 | MemSpace | cache invariant; witnesses |
| C370 | AxiTester | pending command as function of the state, induction over the run; witness |
| C371 | AxiTester | induction by last cycle; witnesses and general negation |
| C372 | AxiTester | case split per state; witness |
| C373 | SegArr | slices and concatenation of base 2^w digits; witness |
| C374 | SegArr | division; witness |
| C375 | MatrixCfg | groups are components (C52), index map of ascending lists; witness |
| C376 | MatrixCfg | order of a hash table is ascending for small integers; witness |
| C377 | MatrixCfg | groups without slaves; witness |
| C378 | UsbBundle | induction over descriptors |
| C379 | UsbBundle | take of a concatenation |
| C380 | UsbBundle | fold invariant per endpoint; witness |
| C381 | UsbBundle | UTF-16 round trip with the mark; witness |
| C382 | TypeSep | mutual induction over type trees, no adjacent unmarked pieces |
| C383 | SigBuilder | cases |
| C384 | SigBuilder | cases; witness |
| C385 | UsbXfer | induction over packets |
| C386 | UsbXfer | first packet; witness with size 8 |
| C387 | UsbXfer | sound and complete parser, class of interface as a fold |
| C388 | UsbXfer | loops over configurations and strings; witness with two strings |
| C389 | PhyAgents | joint invariant, work decreases |
| C390 | PhyAgents | joint invariant, work decreases |
| C391 | PhyAgents | round trip of bytes; witness with two frames |
| C392 | Dsp48 | carry save adder identity by induction on bits, 12 bit slices of the final adder by linear arithmetic, logic operations per bit |
| C393 | Dsp48 | history of enabled cycles; negation on BREG = 2 |
| C394 | Dsp48Add | list of stages, one step conservation by induction on stages, invariant of parts of the sum and carries per stage |
| C395 | Dsp48Add | conservation of list of optional items |
| C396 | MdioAg | lemmas per phase of the frame (preamble, header, data, answer), induction on frames |
| C397 | MdioAg | concrete bit sequence; number of bits which remain to a write decreases by at most one per bit |
| C398 | DpSimRam | only writes are waiting after a check; loop characterised by a map over range |
| C399 | DpSimRam | received requests = done ++ waiting, memory = fold of done over the word stream; one request leaves per check if its words are there |
| C400 | Mi32Ram | received = processed ++ waiting; last write by find? on the reversed prefix |
| C401 | Mi32Ram | case analysis; concrete witness |
| C402 | SpiAg | explicit state for each period of a word, induction on words |
| C403 | SpiAg | concrete witness; the same induction with both directions |
| C404 | UsbIp.lean (handle, submit, unlink, serve) | induction over commands, handle_one for one command with sequential readers of big endian numbers |
| C405 | UsbIp.lean | witness of bulk OUT, handle_one for endpoint 0 |
| C406 | UsbIp.lean | witness of a long packet, handle_one |
| C407 | UsbIpOp.lean (outPkts), UsbXfer.lean (split) | receiver with toggle, rx_splitN by induction over packets |
| C408 | UsbIpOp.lean (inSubmits) | induction over answers |
| C409 | UsbIpOp.lean (packDesc, devlist) | decoder of the reply, witness with alternate settings |
| C410 | UsbIpOp.lean (parseBusId, doImport, handleOp) | value of decimal digits, prefix match of digits, find? by address |
| C411 | AxisPrio.lean (join), SplitJoin.lean (joinPrioritized) | invariant: the en registers are zero or one hot with the input of the open frame |
| C412 | AxisPrio.lean | two cycle witness; the output is the word of the locked input |
| C413 | UsbIpRec.lean (filterEmptyIn), UsbIp.lean | induction over exchanges; a payload of two zero bytes takes only the reply with it |
| C414 | UsbIpRec.lean (cutOff) | witness; the offset is the length of segments ended before |
| C415 | BiDirAg.lean | induction over handshakes |
| C416 | CacheUtil.lean (applyWrite) | bit i of the mask is bit i/8 |
| C417 | CacheUtil.lean (extend8) | closest w ≤ w |
| C418 | CacheUtil.lean (camRead) | 2^log2ceil(n-1) ≥ n unless n = 2^k+1 |
| C419 | CacheUtil.lean (parse, deparse) | division by powers of two |
| C420 | TupAg.lean | reads of distinct signals after writes; witnesses for the others |
| C421 | EthMacTx.lean | invariant: the register holds the checksum which is not taken yet |
| C422 | UsbPkt | bytes of a token as numbers (bits of addr, endp, CRC5), data CRC popped from the end |
| C423 | UsbPkt | inversion of parse_packet; negation by ACK with one byte behind |
| C424 | UsbIpReplay | induction on the tree of reads and writes |
| C425 | UsbIpReplay | induction on the tree; negation by a wrong last write |
| C426 | OooHash | key_matches registers equal the comparison with the operand of main_op (one step lemma about the forwarding); the item part refines OooOp, results by its invariant |
| C427 | OooSkip, OooHash | canceled items are no-ops, the history is the list of finished operations without some of the no-ops (Skips), forwarding from it gives the same values |
| C428 | UlpiAg | case analysis, ~ of python ints as -x-1 |
| C429 | UlpiAg | invariant: received ++ packet in flight ++ queue = added packets, in each of four phases of the bus; delivery by a measure |
| C430 | CacheRead | conservation per id and kind (hit/miss), memory = any AXI ordered memory; negation by a concrete run |
| C431 | CacheRead | per cycle decision; negation by concrete runs |
| C432 | UsbVcpRom | composition of compileRom and UsbEp0 (get_core); negation for all bundles with at least 7 descriptors |
| C433 | UsbVcpRom | composition of rom_lookup and string_ignores_length |
| C434 | Segment7 | all 16 values |
| C435 | AddrProbe: tree of components, walk, route | mutual induction; the walk commutes with a shift of the offset |
| C436 | AddrProbe: discover | the number of endpoints is the length of the walk; the offset does not occur in the result |
| C437 | CompName: find, addAll | pigeonhole on the numbered names, which are different because decimal digits are injective |
| C438 | UsbVer: toU16, fromU16 | nibbles of a decimal number; decision over the 100 versions of two digits |
| C439 | UsbVer: speed, listed | composition of both conversions with the table of speeds |
| C440 | UsbDescr: packing of fields, one function per descriptor | bytes of a packed number; every function is an iff between its result and the table of the standard |
| C441 | UsbDescr: device, vcp | acceptance conditions of C440 |
| C442 | UsbDescr: maxPower | arithmetic |
| C443 | UsbDescr: getDescr | arithmetic of or and shift |
| C444 | UsbDescr: vcp; the host cuts the bytes by bLength | explicit form of the list, strings are of type 3 |
| C445 | ForLoop.loop | monitor automaton over the observed transactions, parameterised by the last index; invariant over all traces |
| C446 | ForLoop.fsm, hard | both states encode the last input with a bit set (fold over the history) |
| C447 | ForLoop.two | closed form of the state by induction over the inputs |
| C448 | AxiSize.bytesInTrans | bounds of bit_length by strong induction |
| C449 | AxiSize.getSizeWidth | bounds of log2ceil; counterexample with 3 bytes |
| C450 | AxiSize.create3, create4, signals3, signals4, drive | the tuple zipped with the signals of the agent compared signal by signal with the arguments |
| C451 | AxiBld.buffCdc | parameters followed from the builder to the ports |
| C452 | AxiBld.maxBurst, burstCount | exact value of log2ceil of a power of two |
| C453 | AxiBld.toAxi | decision table over all classes and the id width |
| C454 | AxiBld.resize | case split on the condition |
| C455 | CrcTab.table, Cfg.crc (definition of CRC of the catalogue, the component itself is Crc) | evaluation of the finite table by the kernel; the witness is CRC_5_EPC |
| C456 | CrcTab.Cfg.reg, Cfg.sent | linearity of the register; a register which gets its own bits becomes zero |
| C457 | CrcTab.step, feed | linearity, and a step with a zero bit is injective for POLY with the lowest bit set |
| C458 | AxisSof.sof | the signal is the last of the previous word; decomposition of any sequence to frames |
| C459 | NetHdr (struct layouts, formats of the RFCs in NetHdrProps) | position of a bit in the struct and in the RFC for all packets; witnesses are packets with one byte set |
| C460 | NetHdr | one check of positions implies equality of values for all packets |
| C461 | NetHdr.format, NetHdr.parse | split of a join; digits by finite check |
| C462 | NetHdr.rteMbuf | finite check of all fields |
| C463 | UlpiCmd (commands as numbers) | arithmetic on quotients and remainders |
| C464 | UlpiCmd.regs, setOf, clrOf (binding of arguments of methods) | finite check against the table of the standard; case analysis of the call |
| C465 | UlpiCmd.pack, unpack | induction over the fields; positions checked against the table of the standard |
| C466 | UlpiCmd.detect, alignOk | bits of a word by division |
| C467 | ExReg (folds over events) | a fold which writes on some events equals the last write |
| C468 | ExReg.dreg, dreg2 | last steps of a run |
| C469 | ExReg.zeroTree | induction over the tree of conditions |
| C470 | Mmcm (fixed point numbers) | the checks are equivalent to the limits of the counters and frequencies; arithmetic on products |
| C471 | Mmcm | the same equivalence in the other direction |
| C472 | IoMon.connectTo, trees with collected paths | mutual induction, both directions |
| C473 | IoMon.monitorOf | mutual induction, lookup of own paths |
| C474 | IoMon.connectFrom | as C472 |
| C475 | IoMon.ramStep over events | last write splits the history |
| C476 | IoMon.syncStep | as C475 |
| C477 | IoMon.connectStruct | as C472; concrete member without driver |
| C478 | MemMst.axiCall over calls | closed form of the queues by induction |
| C479 | MemMst.mi32Call, bramCall, avalonCall | cases; violated for Avalon-MM |
| C480 | MemMst.queue, axiRun | queue is the map of an injective function; violated for AXI-Lite and BRAM |
| C481 | FifoCfg.hsFifo, outcomes of elaboration | case analysis; violated for EXPORT_SPACE alone |
| C482 | FifoCfg.hsDeclr | violated, check is a tautology |
| C483 | FifoCfg.hsFifoAsync | characterisation of accepted parameters; exports violated |
| C484 | AxiAg.setEnable over operations | invariant of the flags; violated after a single channel was set |
| C485 | AxiAg.getDrivers, getMonitors | case analysis over all configurations |
| C486 | IpifMon.step, monitor per clock | induction on remaining cycles |
| C487 | IpifMon.step with held outputs | all results of a step; violated with latency |
| C488 | IpifMon.check | case analysis; violated in the last cycle of a write |

Liveness under real clocks, metastability and power-up X values cannot be
expressed; the corresponding parts are stated over abstract schedules.

## Properties the code violates

Each of these has a theorem proving the negation of the full statement (a concrete
witness) and, where something weaker holds, a `_partial` theorem.

| id | title | finding |
|----|-------|---------|
| C04 | Fifo INIT_DATA is delivered first and not overwritten | proved for len(INIT_DATA) < DEPTH; for len = DEPTH (DEPTH>=2) the code violates the property, counterexample proved |
| C100 | AXI to AxiLite follows the burst type and size | burst type and size are ignored: FIXED, WRAP, narrow and unaligned bursts go to wrong addresses; correct for aligned INCR bursts of full words and single beats |
| C102 | Slave timeout gives no spurious responses | an answer of the slave does not stop the timer, each answered request gets a second response SLVERR later; an error response is given only exactly TIMEOUT cycles after a request with this id |
| C103 | Slave timeout answers for a silent slave | the error response is offered for one cycle only and is lost if the master is not ready in it; it is offered exactly TIMEOUT cycles after the request |
| C104 | Slave timeout timer fits | the width is computed from TIMEOUT - 1 instead of TIMEOUT, it is too small exactly for TIMEOUT = 2^k + 1 |
| C108 | MDIO preamble has 32 bits | Violated: a request accepted while MDC is high, e.g. one which waits at the end of a write, is sent with 31 bits of preamble. Proved: the preamble has 32 bits if MDC is low when the packet starts and 31 otherwise. |
| C109 | MDIO output is stable over the rising edge of MDC | Violated: the FSM goes to idle with the last rising edge of MDC, so the last bit of a write is released by the clock edge which raises MDC. Proved: every other bit is stable over the edge. |
| C110 | SPI master timing logic is free of combinational loops | violated: for SPI_FREQ_PESCALER=10 the tick of the initial wait is masked by the reset which it causes, there is no stable state; holds if half the prescaler is a power of 2 and SS_WAIT_CLK_TICKS is 1, 2 or 4 |
| C112 | SPI master deselects the slave after last | violated: chip select only follows vld, so it stays asserted between back to back words; the wait before the first clock edge after last does hold |
| C114 | I2C bit controller reports a lost arbitration | violated: sda_chk is never set to 1, with SDA held low the loss is never reported; the abort after a report holds |
| C115 | I2C SCL rate follows clk_cnt_initVal | violated: the state machine is not gated by stateClkEn, the wires do not depend on clk_cnt_initVal nor on clock stretching |
| C116 | I2C read returns the value of SDA | violated: dout is a pulse at the rise of SCL and does not depend on SDA |
| C117 | RamTransactional: data beats belong to accepted writes | Violated: the address of a flush write waits until the old item can be read, but w.data.ready and the write enable of the RAM ignore w_addr_en, so beats are consumed and written to word 0 while the write is not accepted. Proved for runs without flush: ITEM_WORDS beats per write and exact memory contents. |
| C118 | RamTransactional: flush returns the old item exactly once | Violated: the flush read is dispatched without waiting for w.data, if the data come later the item is flushed twice and its second word appears on r.data. Proved for gap free writes into an idle memory with a ready flush port and no read; it is shown when the memory is idle. |
| C119 | RamTransactional: reads are atomic and in order | Violated: a read between two beats of a write of the same item (or a write which overtakes a stalled read) gives a mix of old and new words. Proved without flush: order, id, last, each word is current at some time between request and delivery, everything is delivered N+1 cycles after the last request if the consumer is ready. |
| C12 | HandshakedReg INIT_DATA appears exactly once after reset | proved for m=0 and m=n; for 0<m<n the code delivers undefined words (proved for all such n,m) |
| C120 | AXI datapump: bursts address exactly the words of each request | Violated: a request over the end of a word with MAX_LEN=0 reads one word; len+1 wraps to 0 for a full length request at an offset if CHUNK_WIDTH<=ALIGNAS<DATA_WIDTH and MAX_LEN+1 is the AXI limit; a legal request is swallowed if CHUNK_WIDTH>ALIGNAS>8; DATA_WIDTH=8 clears address bit 0. Proved for all parameters without these cases (Sound), all request sequences and timings. |
| C122 | AXI read datapump: read error | Violated: after an error the words of the slave are consumed and not given to the driver, all requests are blocked for ever. Proved: errorRead is set exactly after an error response and stays; after an error nothing is requested and nothing is output. |
| C124 | AXI datapumps: alignment error | Violated: the write datapump checks alignment to DATA_WIDTH, a request aligned to ALIGNAS raises the error and blocks the unit. Proved: the read datapump raises the error exactly for addresses not aligned to ALIGNAS; the write datapump is right for ALIGNAS=8 and ALIGNAS=DATA_WIDTH. |
| C125 | AXI datapumps: 4 KB boundary | Violated: requests are not split at page boundaries. Proved: if the words of each request are in one page, each burst is. |
| C126 | AXI datapumps: MAX_CHUNKS requests are expressible | Violated for the write datapump: MAX_LEN is always 511. Proved for the read datapump and for the write datapump with at most 512 words. |
| C131 | AXI matrix accepts every request | A request with an address outside of all ranges is never accepted, the master hangs and all its later requests too; a mapped request is accepted within as many cycles as there are masters. |
| C132 | Request on a slave port of AXI matrix is stable until taken | The payload multiplexer is enabled by ready of the slave, the payload is not defined while the slave stalls and it changes with the arbiter. Proved: valid is not withdrawn, the payload is that of one requesting master in the cycle of the transfer. |
| C133 | Address of a slave port of AXI matrix is wide enough for its range | ADDR_WIDTH is log2ceil(size - 1): for the size 2^k + 1 the last byte has no address. Proved for all other sizes. |
| C134 | ReorderBuffer delivers the words in the order of their ids | Violated: the extra condition of the input register blocks only its ready and not the write to the RAM, a waiting word overwrites the word which is still in its place. Proved for sources which send a word only after the word with the same id before it was delivered. |
| C139 | Stalled output of HsJoinFairShare keeps its word | VIOLATED by the code: the priority register rotates also during a stall, with two valid inputs the data of the stalled dataOut change. Partial: vld is always kept; the data are kept while only one input is valid |
| C14 | StreamNode extraConds block every interface | the documented behaviour is violated (counterexample); what holds is proved |
| C140 | ArrayItemGetter returns the items with the wanted indexes | for ITEM_WIDTH=8 log2ceil(1)=1 doubles the address step, other words are read; holds for items of 2, 4, 8, ... bytes |
| C141 | CLinkedListReader delivers the items of the linked list in order | for PTR_WIDTH < log2ceil(ITEMS_IN_BLOCK+1) fitTo cuts inBlockRemain and the node pointer is given out as an item; holds otherwise |
| C142 | CLinkedListReader never reads past the write pointer | for PTR_WIDTH < log2ceil(ITEMS_IN_BLOCK+1) four words are requested while one is available; holds otherwise |
| C144 | CLinkedListWriter writes the items to the nodes of the linked list | the increment of baseIndex has priority over the load of nextBaseIndex, so the next node is never entered, and the last burst of a node is one word too long and overwrites the node pointer; items go to consecutive words, which is right for the first node only |
| C145 | CLinkedListWriter sends all words of a requested burst before it waits for the acknowledge | the state machine leaves the send state when the counter is 0 without looking at the handshake of the final word; holds if the final word is not stalled |
| C148 | Timeout of CLinkedListWriter flushes incomplete bursts | the length of the request does not depend on the number of buffered items, the started burst waits for items which do not come; the request is made in time |
| C149 | ArrayBuff_writer writes items circularly to the array | if BUFF_DEPTH does not fit in the width of remaining (ITEMS < BUFF_DEPTH) bursts leave the array; for DATA_WIDTH=8 log2ceil(0)=1 doubles the address step; holds for the other parameters |
| C150 | ArrayBuff_writer sends complete bursts in order and counts uploaded items | the assertion on the widths allows BUFF_DEPTH from 2^k+1 to 2^(k+1)-2 with len of k bits, len is cut (6 words sent for a request of 2); holds for BUFF_DEPTH <= 2^lenWidth |
| C151 | ArrayBuff_writer requests only words which it has | with TIMEOUT=1 the timeout counter is 0 from the reset and a request is made with the empty buffer; holds for TIMEOUT >= 2 |
| C152 | Write request of ArrayBuff_writer is stable until taken | items which come during the stall change req.len of a request made by the timeout; stable if no item comes |
| C154 | MMU does not read memory for unmapped addresses | fails: the request for an invalid level 1 item is sent in the cycle in which the item appears because segfaultFlag is a register; proved: reads are for the accepted addresses in order and only the last of them may be for an invalid level 1 item |
| C158 | DataRdVldToAxi4Stream flushes on timeout | fails: with both limits the counter of the timeout does not run for the word which fills the frame to MAX_FRAME_WORDS, it waits for the next input for ever; proved for other words |
| C159 | DataRdVldToAxi4Stream closes frames only on timeout | fails: the counter of the timeout is not reset by an input, short gaps in a frame add up; proved: at least IN_TIMEOUT - 1 cycles without an input since the end of the previous frame |
| C160 | HsSlrCrossing transfers each word once | fails: a word offered in the first cycle after the reset is delivered twice (reg.rd is reset to 0 but cross_ce_inreg to 1); proved if nothing is offered in that cycle |
| C162 | MultiplierBooth computes the signed product | fails if dataIn.a is the least number -2^(DATA_WIDTH-1), which the documentation allows: a - m overflows DATA_WIDTH bits, e.g. (-8)*1 = 8; proved for all other operands and all widths |
| C164 | RamCumulativeMask reads | fails: in the second cycle of an accumulating write the first read port is ready, but the memory is read at the address of the write; proved for every read accepted outside of the cycle in which an accumulating write is accepted (mask_read_accepted_partial), and that the ports are ready without an accumulating write |
| C166 | AXI stream to LocalLink and back | fails if the number of bytes is 1 or not a power of two: the remainder of words inside of a packet is mask(log2ceil(bytes)), which is not bytes-1, and strb is undefined after the conversion back; proved for 2, 4, 8, ... bytes and for words which end a packet |
| C168 | Axi4sFrameGen frames | fails for len = MAX_LEN if MAX_LEN is a power of two: the counter has log2ceil(MAX_LEN) bits; proved for lengths which fit in the counter |
| C169 | Output of Axi4sFrameGen is stable | fails: writes of enable and len act immediately on a word which waits; proved for cycles without such a write |
| C170 | Axi4SStoredBurst sends exactly DATA | Fails for bytes: the last word is sent twice and the mask of an incomplete last word enables all lanes (words up to 64 b). The partial theorem says exactly which words are sent; tuple mode is proved. |
| C171 | Axi4S_fifoMeasuring reports the size of every frame | Fails for DATA_WIDTH=8: rem has one bit, so the size is doubled. Proved for all wider interfaces. |
| C174 | Axi4S_footerSplit offers words independently of ready | The claim is false for the code: a word shared by prefix and footer is offered only to an output whose sibling is ready; two consumers which wait for valid block forever (waiting_consumers_block). Proved: the offer of an output never depends on its own ready. |
| C176 | RmiiAdapter receiver resynchronises in a gap | Fails for gaps of any length: a carrier which ends within the preamble leaves the receiver in preamble_and_sfd and the next frame is reported as error. Proved after frames with whole header and any number of symbols (also after wrong headers, see C177). |
| C178 | RmiiAdapter receiver terminates every frame | Fails for frames which do not end on a byte boundary: the last whole byte has neither last nor err. Proved for whole bytes. |
| C18 | HsJoinFairShare never starves an input | starvation possible (counterexample); proved for n consecutive ready cycles |
| C180 | AXI to Avalon bridge performs the accepted writes | The claim does not hold with RW_PRIORITY=READ (witness); proved for RW_PRIORITY=WRITE and for executions in which no blocked read request waits together with a write. |
| C181 | AXI to Avalon bridge returns all read data | The claim does not hold for bursts longer than the range of the capacity register (witness); proved for the accepted bursts with len < 2^width of the register. |
| C182 | AXI to Avalon bridge does not wait with valid for ready | B valid depends on B ready (witness and the consequence for all executions); R valid does not. |
| C184 | Avalon to AXI bridge reports the responses | Errors of reads are never reported (for each configuration); the rest is proved. |
| C185 | Avalon to AXI bridge does not wait with valid for ready | AW and W valid depend on ready (negation for each configuration and the resulting deadlock); AR does not. |
| C186 | burstCount of Avalon can express MAX_BURST | Does not hold for each power of two greater than one, holds for all other values. |
| C187 | Stream to memory DMA writes the started copies | Does not hold for MAX_BUTST_LEN = 1 with DATA_LEN > 1 (witness), proved for MAX_BUTST_LEN from 2 to 255 and for DATA_LEN = 1. |
| C188 | Stream to memory DMA control register bits | Does not hold for any width; proved for the positions which are really used. |
| C189 | Stream to memory DMA idle means that the data are written | Does not hold (witness); when idle all bursts were at least completely sent. |
| C190 | Stream to memory DMA bursts do not cross 4 KiB | Does not hold for unaligned base address (witness); proved for base addresses aligned to the size of the longest burst which divides 4096. |
| C191 | AxiResize writes change the addressed bytes | Negation for the 8 bit to 32 bit resize (log2ceil(DATA_WIDTH//8 - 1) is 1 instead of 0); proved for all powers of two from 16 bits up. Missing: the claim does not hold for 8 bits. |
| C192 | AxiResize reads return the addressed bytes | Negation for the 8 bit to 32 bit resize; proved for all powers of two from 16 bits up. Missing: the claim does not hold for 8 bits. |
| C194 | AvalonMmBuff loses no read data or write response | Does not hold for DATA_BUFF_DEPTH=2 (witness); proved for all other depths. |
| C195 | AvalonMmBuff delivers responses of reads | Does not hold: outputs never depend on responses of reads (for each configuration); witness for the default configuration and for registers. No weaker positive part exists. |
| C196 | AvalonMmBuff respects ADDR_BUFF_DEPTH | Does not hold if the depths differ (witness); proved that the capacity is DATA_BUFF_DEPTH (1 for ADDR_BUFF_DEPTH=1). |
| C197 | Usb2SieDeviceRx delivers each byte of each packet once and marks the last | front_fails: a cycle with active=1 and valid=0 inside of a packet repeats the previous byte. front_partial: exact packets if a byte is valid in each cycle from the first byte to the end. beats_shape (all inputs): last is followed by a gap and only last is. |
| C198 | Usb2SieDeviceRx rejects packets with a wrong PID check field | pid_fails: byte 0x02 (ACK with wrong check field) is reported as ACK with error=0. pid_partial: tokens with wrong check field are not reported. |
| C199 | Packets received by Usb2SieDeviceRx do not influence each other | independent_fails: no function of packet explains the headers, the token after a token of 5 bytes is lost (parser_token keeps its word index). headers_partial: the exact headers if tokens have at most 4 bytes. |
| C20 | HsSplitFair selectedOneHot names the output used | violated unless the prioritised output is ready |
| C200 | A SOF with right CRC is reported without error by Usb2SieDeviceRx | sof_fails: the frame number is compared with the address of the device, for any 5 bit CRC function. sof_partial: error iff the low 7 bits of frame number differ from the address. |
| C201 | Usb2SieDeviceRx reports tokens with missing or extra bytes | missing_fails: token of 2 bytes gives no header. missing_partial: no header if bytes are missing, error=1 for one byte more. token_reported: exact header of a token of 3 bytes. |
| C203 | Axi4S_frameParser with OVERFLOW_SUPPORT delivers the fields of frames of any length | over_lost: for any unaligned struct the fields which end in the last word are never delivered, for all executions (parsing_overflow is 1 in the last word and disables outputs). over_fails: witness. over_partial: all aligned structs. |
| C204 | Axi4S_frameParser with UNDERFLOW_SUPPORT handles frames of any length | under_fails: third word of frame is delivered as the first field again. under_deadlock: number of words not a power of 2: no word is ever accepted again. under_partial: frames not longer than the struct. |
| C205 | Axi4S_frameParser.error_underflow marks exactly the frames which are too short | underflow_fails: a frame longer than an aligned struct with OVERFLOW_SUPPORT is reported as underflow. underflow_partial: exact if frames are not longer than the struct. |
| C207 | Axi4S_frameDeparser sends every value of every field in its frame | AllSent is false for a field of 4 bits followed by a field of 8 bits in words of 8 bits (frames_fails, value_lost in general); frames_partial: holds if a field is valid only together with the fields crossing the end of its last word |
| C210 | Axi4S_frameParser reads the values from the frames of Axi4S_frameDeparser | under the assumption of C207 frames_partial |
| C216 | Every accepted read of Axi4Lite_to_Ipif with IpifEndpoint is answered | answered_fails: address behind the end of the address space; hang: after such request nothing is ever answered or accepted; answered_partial: requests to the array are answered in two cycles |
| C219 | Tags in the result of AxiCacheTagArray are the records of the set | tags_fails: set updated in the cycle of the lookup; tags_partial: the set was not updated in the previous cycle |
| C220 | Write-allocate cache loses and duplicates no line | safe_fails: two writes which follow each other; safe_partial: with AxiCacheLruArray, if a write is accepted only when no write to the same set is in the pipeline; safe_of_victim: the same for any LRU array which knows the victim in time, late_victim_fails: this is needed |
| C227 | MI32 interconnect answers reads in order with data of the right slave | m.drdy is set whenever the order FIFO has an item, data may be later (reads_fails, latency 2) or lost (early_fails, latency 0); proved for slaves with the latency of exactly one cycle (reads_partial) |
| C229 | Whole address space is reachable through the sliding window | offset register is zero-extended from DATA_WIDTH bits, upper half of m is unreachable with default parameters (reach_fails); the exact condition is reach_iff |
| C230 | IpifBuff does each transaction exactly once with its own response | response registers are without reset (once_fails); proved if they are idle after reset or the master does not start in the first cycle |
| C234 | BramPortEndpoint output holds the data of the last read | readBramIndx does not respect en (holds_fails); proved while the address is stable, in particular for the cycle after the read |
| C236 | Victim from the LRU array is the victim of the requested set | victim_req_r.en is not gated by ready (right_fails); proved if requests never wait |
| C238 | LRU array marks exactly the ways which were used | incr_val_oh is computed from incr.way instead of incr_tmp.way (updates_fails); proved if the ports hold the way for the next cycle |
| C24 | HsResizer upscale packs each n words exactly once | words are lost when the consumer stalls (counterexample) |
| C240 | ULPI data wires are driven exactly while the LINK owns the bus | No contention is proved. That the LINK always drives its bus is false: the driver enable is utmi_tx_accept_w, no byte of a register write is ever driven (register_writes_never_driven), neither are held bytes. What holds: packet bytes in the cycle in which they are taken and the idle pattern. |
| C241 | Packets from UTMI reach the PHY unchanged | False if the PHY takes the bus in the middle of a packet: the rest of the packet is later sent as a new transfer (tx_fails). Proved for all executions in which the PHY does not break a transmit packet whose first byte it already took. The driver enable is not part of this claim (C240). |
| C242 | Control registers of the PHY follow the UTMI control inputs | False if the input changes again while its register write is under way (sync_fails). Proved if an input holds still while its update is pending, including aborted writes. |
| C244 | Status flags reflect the last RX CMD | HostDisconnect is never cleared (disconnect_sticky for all executions). The other flags are as encoded; sessEnd and sessValid only for the codes which define them. |
| C245 | Chirp ends when it is deasserted | A command with chirp is never consumed from the input buffer: chirp_forever for all continuations. Partial: zeros are sent during the chirp and commands without chirp are consumed. |
| C247 | Delete of a missing key is harmless | Delete of a key which is not stored, while its places in all tables are occupied, erases one of the other items. Partial: right if the key is stored or some of its places is free. |
| C248 | Clean empties the cuckoo hash table | If TABLE_SIZE/TABLE_CNT is not a power of two, the hash addresses places behind the last cleaned address; garbage is found there. Partial: power of two. |
| C250 | lookupRes.key is the searched key | If the key is not found, the key in the result is the key of the item in the table 0. Partial: right if found. |
| C251 | Idle cuckoo hash table accepts lookups | With MAX_LOOKUP_OVERLAP = 1 no lookup is ever accepted; in general only MAX_LOOKUP_OVERLAP - 1 lookups overlap. Partial: accepted if fewer than MAX_LOOKUP_OVERLAP - 1 are in progress. |
| C253 | OutOfOrderCummulativeOp loses no update | The default PIPELINE_CONFIG loses an update: write acknowledged in the clock cycle of the transfer of old read data leaves the history (1 item) before the forwarding in stage 2. Partial: WRITE_ACK_TO_READ_DATA_LATENCY at least WRITE_TO_WRITE_ACK_LATENCY + 2 + (number of acknowledged writes which read data may miss); refuted one below the bound. One bus word per item, write_cancel 0. |
| C255 | aw.valid and w.valid do not wait for ready | aw.valid waits for w.ready and w.valid waits for aw.ready (StreamNode): with a slave which waits for valid nothing is ever written. Partial: channels ready in the same clock cycle. |
| C259 | Data from the read aggregator are newer than the request | The full claim (def Fresh) is false, negation proved with a witness; proved: data are newer than any moment without a request for the line |
| C260 | Read aggregator takes answers of the memory in a bounded time | The full claim (def Served) is false, an unbounded starving run is constructed; proved: bound 2**ID_WIDTH + 1 if there are no new requests |
| C262 | axi4s_send_bytes with any offset is received | The full claim (def RoundTrip) is false; what happens in both failing cases is proved for all inputs |
| C263 | axi4s_recieve_bytes accepts only contiguous frames | The full claim (def Contiguous) is false, negation proved; all other parts proved in accepted_partial |
| C265 | Byte enables of the simulation memories change only enabled bytes | The claim is false: for a cell with python int the mask of valid bits is taken as one bit per byte (allMask), so bytes which were not written become invalid; for 64b words a write of the first byte to an uninitialized cell gives a mask equal to allMask and all bytes become valid. Proved if all bytes are enabled or for cells which are not int, words with number of bytes not a multiple of 8 and bytewise validity. |
| C266 | Simulation memories behave as memory for any sequence of bursts | Exact for transactions with all bytes enabled from any memory; with byte enables only under the conditions of C265. Aligned addresses, responses and ids are not modelled. |
| C267 | Unaligned read from the simulation memories returns bytes from the address | The claim is false: the bytes of the next word are masked by the mask of the bytes of the first word after the shift, so they are always 0, also if one of the words is not initialized. Proved if these bytes are 0. For cells with python int. |
| C268 | Unaligned write to the simulation memories writes bytes from the address | The claim is false: the second word is shifted by offset instead of the word size minus offset and it is masked by the byte mask. Proved for the first word and for all words other than the second one, memory without python int, fully valid data with all bytes enabled. |
| C27 | FifoDrop delivers exactly the committed words | Proved for all histories in which no discard coincides with the read of the last memory cell; in the excluded case the code deadlocks or corrupts (counterexamples proved). |
| C270 | Axi4SFifoCopy can transfer frames shorter than DEPTH | The claim is false for frames of DEPTH-1 words: the inner fifo has depth DEPTH-1, one place of it is not usable and the words are released only after the last word of the frame, so only DEPTH-2 words of a frame are ever accepted. Proved for frames of at most DEPTH-2 words. |
| C271 | Axi4SRegCopy is the same thing as Axi4SFifoCopy for frames of one word | The claim is false: the id is replaced if dataOut_copy_frame is set also if there is nothing on the output. Proved if it is set only with valid on the output. |
| C272 | Axi4SFifoDrop delivers exactly complete frames which were not discarded | The claim is false if a discard is in the cycle in which the read pointer wraps (see C27): the empty fifo looks full for ever. Proved if there is no such discard, stated by the number of words which were taken. |
| C273 | size of Axi4SFifoDrop is the number of stored words | The claim is false: commit is valid and last also if the word is discarded, so a frame discarded in its last word is added to the size. Proved if frames are not discarded in the cycle of the last word. |
| C274 | USB endpoint rx buffers deliver exactly good packets of the endpoint | Full claim is false: the error of a packet for an other endpoint in the cycle in which the read pointer of the fifo wraps makes the empty fifo look full. Proved if there is no error in this cycle, for packets which are not interleaved and an error word which is kept until it is accepted. |
| C275 | USB endpoint buffers for an endpoint which does not exist | The rx side is proved. On the tx side the stall is proved, but tx is valid with undefined data (negation proved). |
| C277 | USB endpoint tx buffer accepts a packet of its size | Full claim is false: at most buffer_size-2 words are accepted before the last word is there and the packet is never sent. Proved: if every buffer_size-2 consecutive words contain an end of packet then a word is accepted or a complete packet waits for the host. |
| C28 | FifoDrop space counter | The code violates it for every depth (a write never decrements space); proved: cycles without write/discard update it right. |
| C281 | USB speed negotiation ends | Full claim is false: if HS_RESET_TIME is a power of two (CLK_FREQ = 100 * 2^k Hz), the timer saturates below it and without chirps of the host the device never leaves the negotiation. Proved with the bound HS_RESET_TIME + 2 if HS_RESET_TIME + 1 < 2^width. |
| C282 | USB high speed only after chirps of the host | At least 6 changes are proved. That they are K and J is false: all changes of the line state are counted, SE0 and J are enough. |
| C283 | USB device: DATA0/DATA1 pid of IN packets | Toggle of each sent packet is the expected one; the toggle is changed without ACK of the host, so the repeated packet has a different pid (negation proved). |
| C284 | USB device: ACK | ACK only for good data proved. A packet with old toggle is never answered (proved for all such transactions), so the host can not recover from a lost ACK. |
| C285 | USB device: token for another device | The machine does not use rx_header.error: it answers tokens of other devices by handshake. No data are moved. |
| C286 | USB device: PING | ACK depends on ep_tx.valid instead of ep_rx.ready. |
| C287 | USB device: answer of received data | tx_stall of IN direction replaces ACK by STALL. |
| C288 | USB device: each IN token is answered | If the data packet after OUT token is lost the device does not answer until the end of some data packet. |
| C291 | USB EP0: response to GET_DESCRIPTOR | Proved when the length is not a multiple of the packet size. Otherwise the data stage never ends and nothing is accepted until reset (proved for all such requests). |
| C292 | USB EP0: length of response | Strings are not cut to wLength; device and configuration are. |
| C293 | USB EP0: STALL of a not supported request | The stall of a request without data stays after its answer and makes STALL for all other IN endpoints. |
| C294 | USB EP0: SETUP is always accepted | Not ready in DATA_GET and STATUS_IN; lost in STATUS_OUT. |
| C296 | USB EP0: GET_STATUS, GET_CONFIGURATION | ep0_trans_len is not set; after reset the request blocks the device until the next reset. |
| C297 | USB EP0: SET_INTERFACE | The constant is 0x11 instead of 11, the claim is false for all states. |
| C298 | USB EP0: data stage from host | The length is not loaded from the request. |
| C299 | USB data packets are sent with the CRC16 of USB | negation with packet 00 01 02 03; exact characterisation of right packets and of sent bytes |
| C300 | Usb2SieDeviceRx reports a CRC error exactly for data packets with wrong CRC16 | negation; accepted packets are exactly those of the transmitter, bursts are detected |
| C301 | NaiveCrcAccumulator computes the CRC defined by its parameters | negation for reflected CRC; right without reflection, bit reversed with it |
| C302 | Packets of the simulated USB host are USB packets | negation for SETUP of address 0; exact characterisation; agent = device |
| C305 | Format strings are parsed with escapes | re.split returns empty strings between the braces, so the test of t_next never matches and every format string with an escape sequence raises ValueError; proved for texts without braces |
| C306 | Character counter of the string formatter is wide enough | digits of the second item of the same type (b, o, x, X) are not used for the width of the counter; {0:2x}{1:8x} never finishes; proved if the first item of a type is the longest |
| C307 | String formatter does the same as printf | numbers are always filled by zeros and longer numbers are cut; equal to printf with flag 0 for numbers with at most the specified digits |
| C308 | PID controller computes the documented recurrence | the code uses e = input - target, the opposite sign of the documentation; proved with the opposite sign (equal to the documentation with negated a0) |
| C31 | FifoArray lists are independent FIFOs | Violated as stated: on append=0 the documented-as-ignored insert.addr is written (fifoArray_junk_addr_corrupts). Partial theorems hold for every history where that address is not a node with a successor; junkOk_of_addrRet shows a user strategy which meets this. |
| C310 | Read data of FlipRam belong to the memory selected by the request | select of the next cycle multiplexes the data, a read in the cycle before a flip returns the data of the other side; proved if select is the same in both cycles |
| C312 | Strings of polynomials are parsed to their coefficients | the example of the documentation 7x^2 + 6x - 5 raises ValueError, x + 10 is parsed as x + 1, power equal to width raises IndexError; proved for x^a + x^b + ... + 1 with powers lower than width |
| C313 | Ping responder computes the Internet checksum | the end around carry is missing; correct iff identifier + seqNo < 2^16 |
| C314 | Ping responder answers each request by one complete reply | tx.ready is ignored when the reply ends, so the last word is lost if the consumer is not ready; if the address or type are in the last word the decision uses the previous request; proved for a consumer which takes the last word at once and a bus where address and type precede the last word |
| C315 | Input registers of frame join neither lose nor duplicate bytes | with REG_CNT = 3 a word is duplicated while it moves to the output; proved for REG_CNT 1 and 2 |
| C318 | Representative frame sizes have the same words as all frames | violated for a minimum of at least 2*word_bytes (reduced modulo) and for an offset with a fixed length; coverage and soundness proved otherwise, for offset_in = offset_out |
| C320 | Joined frames of the frame join are concatenations of the input frames | Proved for every table of transitions accepted by the decidable check, for all executions; the check is evaluated in the kernel for 19 configurations (default, all of the tests of the component and of the table, several others). Missing: a proof that every generated table passes the check. |
| C321 | The frame join never blocks on allowed frames | Violated: two frames of (1, inf) bytes in 2-byte words stop forever when frame 0 has 1 byte and frame 1 at least 4 bytes (count_not_none returns the index of the first byte, so that the offsets of following frames are wrong). Proved for the default configuration: if both inputs offer a word and the output is ready for two cycles a word leaves, in every reachable state. |
| C322 | Axi4S_eq answers true exactly for frames which carry the value | Violated for frames which are shorter than the value (a frame of the single byte AB is equal to the address 01:23:45:67:89:AB). Proved: one answer per frame, and right answers for frames of the proper length if the consumer is ready. |
| C323 | Answers of Axi4S_eq do not depend on the time in which the consumer is ready | Violated: words accepted in cycles with dataOut.rd = 0 are not compared (the register is updated by the acknowledge of the whole node). Proved for a consumer which is ready in each cycle with a word. |
| C324 | The Ethernet receiver does not deliver frames of other stations | Violated: the error is seen only in one cycle, bytes which enter the fifo later are delivered (a frame of another station is delivered without its first two bytes). Proved: if all frames are for this station and good, and the fifo does not overflow, only frames without the FCS are delivered, in order, for all timings. |
| C325 | The Ethernet receiver does not deliver frames with a PHY error | Violated: only the bytes which were received before the error are dropped, the rest is delivered as a frame. Proved for streams without errors. |
| C326 | A frame with a wrong FCS has no effect | Violated: if the last word of the previous frame leaves in the cycle of the check, the last byte of the bad frame is stored as a frame and blocks the receiver forever. Proved for streams of good frames. |
| C327 | A frame which does not fit in the receive fifo is dropped as a whole | Violated: the end of the frame is delivered, a byte in the middle of it is missing. Proved if there is no overflow. |
| C328 | All good frames are delivered to a consumer which is always ready | Violated: a frame of 84 bytes followed by a frame of 64 bytes (with the standard gap): the result of the check of the second frame is cleared by the last word of the first one and the receiver is blocked forever, whatever is received (dead_forever). Proved: what is delivered is a prefix of the received frames. |
| C329 | A stall of the consumer does not lose a frame | Violated: if the consumer is not ready in the one cycle with the last word, the result of the check is cleared and the receiver is blocked forever. Proved: what is delivered is a prefix of the received frames. |
| C332 | Writes to a waiting line are merged | violated: the lookup of items returns only locked items and the merge accepts only unlocked ones, so nothing is ever merged; proved that each line is one transaction in order |
| C333 | At most one transaction of a line in flight | violated: because of C332 two transactions of a line with different ids are in flight; proved that they are started in order of writes |
| C338 | A speculative read returns the latest write of the line | Violated: the aggregator stores two items of one line and the read takes the lowest slot index; witness returns 7 after 7, 8. Partial: holds if the line is written once. |
| C339 | A speculative read answered OKAY contains only written bytes | Violated: the strobe is not part of the answer; witness with a write of one byte of two. Partial: holds if all writes enable all bytes. |
| C34 | RamXorSingleClock behaves as a multi-write-port RAM | Violated as stated (three separate hazards with witnesses). The partial theorems hold for every schedule with the three restrictions stated there. |
| C340 | LCD driver sends no command before the power up delay | Violated: en pulses with the function set command in the first LCD clocks after reset. Partial: this is the only command in the delay and no character is accepted. |
| C344 | LCD shows the text which was sent | Violated: the form feed does not reset the row register; witness new line, form feed, new line, 'a'. Partial: holds if form feeds are only in the first line. |
| C346 | Debug bus monitor: descriptions point to the right bits | Violated: offsets follow the hierarchy but the data memory follows the order of registration; witness a, b, c with c child of a. Partial: holds if records are registered parent first. |
| C347 | Debug bus monitor: dump_txt prints the current values | Violated: get_data_memory_width ignores children, bits behind the last root are read as 0; witness container with one signal. Partial: holds if the last record is a root. |
| C348 | Debug bus monitor: dump_txt prints each record | Violated: children of a record of a single signal are not printed. Partial: holds if such records have no children. |
| C349 | Debug bus monitor: colors of interfaces | Violated: condition or instead of and, active valid without ready is red. Partial: holds if the interface has both or none of the signals. |
| C351 | Axi4S_frameDeparser: strb of words with unions | Violated: a constant mask of a union is used as a truth value (padding gets strb); also strb is overwritten by the mask of keep. Partial: holds if data bytes are the kept bytes and members have different masks or a uniform one. |
| C352 | Axi4S_frameDeparser: keep of words with unions | Violated: keep of the last member is used for all. Partial: holds if all parts of the union have the same keep. |
| C355 | hw_raise: the exception interface follows the handshake | Violated: the raising value is consumed in the cycle of the raise, vld falls with it and only the pending register remembers it. Partial: vld is held while the value is not accepted. |
| C356 | hw_raise: one exception for each raising value | Violated both ways: a late rd clears the pending exception without vld, and a value which waits behind the other exception raises in every cycle. Partial: holds if handlers are always ready; never silently dropped. |
| C358 | HwExceptionCatch stalls after an exception which is never handled | Violated: after 0 a value 2 is still accepted and lost. Partial: after 2 nothing is accepted, after 0 nothing but 2. |
| C359 | AddrDataRdVld_to_Axi: limit of pending transactions | Violated for limits which are not a power of two: 6 transactions pending with limit 5. Partial: the bound 2^log2ceil(limit)-1, which respects the limit if it is a power of two; requests are accepted together with all their parts and always below the bound. |
| C36 | Cam can address all items | Violated for ITEMS=2^e+1, exact characterisation proved. |
| C360 | AddrDataRdVld_to_Axi: place of a word | Violated: the step is not used for words which share an AXI word, and an offset not aligned to the AXI word is rounded down. Partial: aligned offset and a step equal to the width of the word or a word longer than half of the AXI word. |
| C361 | AddrDataRdVld_to_Axi: words of different addresses do not overlap | Violated for steps shorter than a byte (two words of 4b share a byte). Partial: all steps of at least a byte, for every offset. |
| C362 | AddrDataRdVld_to_Axi: burst length and 4KB pages | The length holds. Pages: violated for offset 4088. Partial: offset multiple of the step. |
| C364 | Memory space master: write strobe | Violated: the width is divided by the address unit twice, the mask of a 32b register is 0; on buses with an address unit of 8b it is wrong for each register. Partial: address unit of 1b. |
| C366 | StructReader and StructWriter: size of a request | Violated: a structure of one word can not be read (req has no len), one of more than 512 words can not be written, nor one which ends inside of the last byte of a word. Partial: other structures of whole bytes. |
| C367 | StructWriter: one writeAck for each structure | Violated: skipWhen is inverted, the acknowledge of the first frame is skipped and the others are propagated; a structure of one frame has no writeAck. Partial: n-1 acknowledges for n frames, i.e. right for two frames. |
| C368 | StructWriter with WRITE_ACK accepts a structure only in idle | Violated: WRITE_ACK only removes the input buffer, a second address is accepted while the first is pending. Partial: bound of pending requests. |
| C369 | Memory space master: items of an array | Violated: index -1 is accepted, its address is in front of the array and it is stored in the cache as the last item. Partial: indexes which are not negative. |
| C370 | AxiTester: each command is executed once | Violated: status is still 1 in the cycle after the write of a command, a command which relies on it is lost. Partial: holds if the status of that cycle is not used. |
| C371 | AxiTester: result registers | Violated: b_resp is never loaded; data wider than the control bus are cut. Partial: registers of the read channel and b_id for data which fit. |
| C372 | AxiTester: offered items are kept | Violated: a write of a register changes an offered item. Partial: valid is always kept, and the content if its registers are not written. |
| C373 | SegmentedArrayProxy: read after write | Violated: the value is always split to bytes, elements of 16b keep only their lower byte. Partial: elements of 8b; other items are kept for all widths. |
| C374 | SegmentedArrayProxy: number of items | Violated: without words_per_item len divides by None. Partial: with words_per_item. |
| C375 | AxiInterconnectMatrix: access rights | Violated: the type of the access right is ignored inside of a sub interconnect, a master which can only write a slave can read it. Partial: all allowed transactions are routed; nothing else if the rights of the group are uniform. |
| C376 | AxiInterconnectMatrix: ports of sub interconnects | Violated: parameters are built in the iteration order of sets, ports are connected in the sorted order; the set {1, 8} is iterated as 8, 1 and the two slaves are swapped. Partial: holds for up to 8 masters and 8 slaves. |
| C377 | AxiInterconnectMatrix: elaboration | Violated: a master which only reads fails on an assertion. Partial: can be built iff each master has a right to read and a right to write. |
| C38 | CrcComb xor matrix equals bit-serial CRC | holds for every polynomial with the term 1; violated otherwise since bit 0 of POLY is ignored (crc_matrix_ignores_bit0) |
| C380 | UsbDescriptorBundle: endpoint capabilities | Violated: the synchronisation type is used instead of the transfer type, a bulk endpoint is marked as control. Partial: presence, packet size, buffer size; transfer types if the two fields are equal. |
| C381 | USB string descriptor | Violated: the encoder adds the byte order mark. Partial: the host gets U+FEFF and the string, bLength is right. |
| C384 | RtlSignalBuilder: masked optional signals | Violated: missing b raises an exception; b masked by itself gives b. Partial: the other cases. |
| C386 | USB agents: device descriptor | Violated: the host expects packets of 64 bytes until the descriptor is known, the descriptor in packets of 8 or 16 bytes is cut after the first packet. Partial: downloaded iff the packet size is more than 18 (32, 64). |
| C388 | USB agents: enumeration | Violated: a string is downloaded with 255 bytes and the device continues with the next descriptors. Partial: exact result for strings with at most 255 bytes together; equal to the descriptors of the device iff there is one string. |
| C391 | RMII agents | Violated: two appended frames are sent without a gap and received as one frame. Partial: frames with a gap are received unchanged, frames appended together are received as their concatenation. |
| C393 | DSP48E1 operand registers delay A and B by AREG and BREG | for BREG = 2 the second register of B is loaded with an invalid value (condition BREG == 1 is tested twice, dsp48e1.py:447-449); proved for every AREG and for BREG 0, 1 |
| C397 | MDIO agent accepts a frame only after a preamble of ones | the agent counts 32 bits of any value as the preamble (intf.py:163-167), a frame after 32 zeros is stored; proved: no register is changed before 64 bits were received |
| C40 | Crc applies XOROUT | violated: Crc xors the bit-reversed XOROUT; holds for palindromic XOROUT |
| C401 | Mi32 agent transports every access | set_valid is borrowed from AvalonMmAddrAgent (avalon/mm.py:174-181) which raises ValueError for READ_WRITE although set_data, get_data support it; reads and writes proved |
| C403 | SPI agents: the master receives what the slave sends | monitorTx writes miso after the same falling edge on which driverRx reads it (intf.py:117-130), so everything is received one bit late; proved: the received words are the bit stream of the slave late by one bit |
| C405 | USB/IP reply of a completed write reports the written length | violated: the reply of an endpoint other than 0 always reports 0; proved for endpoint 0 |
| C406 | USB/IP reply of a read is not longer than the request | violated: the requested length is stored but not used, the whole packet is sent; proved if the packet of the device is not longer than the request |
| C407 | Data toggle of USB/IP OUT transfers | violated: endp_next_pid toggles once per transfer, not once per packet; the packet after a transfer with an even number of packets is dropped by the device; proved for odd numbers of packets |
| C409 | USB/IP device list is readable | violated: a record is sent for each interface descriptor of the device (alternate settings, other configurations) but bNumInterfaces is from the first configuration; proved if the numbers are equal |
| C410 | USB/IP import | violated: a text which does not match the regular expression raises UnboundLocalError and closes the connection, a text with trailing characters attaches the device; proved for all texts of the form bus-device |
| C412 | Axi4SJoinPrioritized keeps a word which waits | violated: the first word of a frame is replaced if an input with higher priority gets data while the word waits for ready; proved for all other words of a frame |
| C414 | cut_off_empty_time_segments keeps the order of a recording | violated: the assertion is commented out, times 5, 10 become 5, 0 for the segment (0, 10); an empty list of segments raises StopIteration; the example of the documentation (0, 10, 11 to 0, 1, 2) gives 0, 0, 1; proved with at least one segment and no item strictly inside of a segment |
| C415 | agents of bidirectional ready/valid interfaces carry items in both directions | violated: the driver of HwIOAddrInOutDataInRdVld reads the address from the signal data; proved for the other agents and for everything but that address |
| C417 | extend_to_width_multiple_of_8 extends by zeros to whole bytes | violated: the width is divided by 8 twice, all widths other than 8 end with a negative width (extend_only8) |
| C418 | the read port of CamWithReadPort can read every item | violated: the address has log2ceil(ITEMS - 1) bits, for ITEMS = 2**k + 1 the last item can not be addressed; proved for all other numbers |
| C420 | agents of interfaces with several signals carry tuples | violated by each of these (all_bad): FifoDrop writer (members in another order), HwIOInsert (the function hash instead of the value), HwIOCuckooInsertRes without data (unassigned variable), HwIOLookupKey with id (wrong name of the signal), HwIOLookupResult (StopIteration in set_data); proved for 25 other agents and for the rest of the members |
| C423 | USB agents accept only packets | Violated for handshakes (witness: ACK followed by one byte); proved for everything else and for handshakes of one byte. |
| C425 | The replay finds a wrong answer | Violated for the last item of the recording; proved for all the items before it. |
| C426 | The hash table of counters is linearizable | Proved for a history of at least p + 2 items (lin_14 is the configuration of counterHashTable_test.py); negation for the default configuration. With write_cancel. |
| C427 | A lookup without a match is not written | Proved for a history of at least p + 2 items; with a shorter one C426 is violated. |
| C428 | RX_CMD of the ULPI agent carries the state of PHY | Negation: RxActive is not reported. The state of Vbus is right. |
| C429 | ULPI agents transport packets in both directions | Proved with both agents enabled all the time (safety and delivery); negation with the agent of PHY disabled for one clock cycle. |
| C430 | Cache returns reads with the same id in order | the full statement is false (hit overtakes a miss with the same id); order within hits and within misses proved, full order if the master does not mix |
| C431 | Each read hit increments the LRU record once | the full statement is false (lost and repeated increments); proved for hits for which the data array and the LRU array are ready |
| C432 | USB virtual COM port: GET_LINE_CODING returns the line coding | the full statement is false for each real device (line_wrong); the exact response is proved |
| C433 | USB: string read by the host is the string of the bundle | the full statement is false for a string over the address 255; proved for a ROM of at most 256 bytes |
| C434 | 7 segment display shows the digit | the documented order of bits is false; proved for the reversed order |
| C435 | Endpoints are discovered at the address where they are accessed | Violated: behind a BusStaticRemap the offset is translated in the direction of the access instead of back, and adders on the address are followed without a change of the offset. Proved for trees without such adders whose remaps are their own inverse at the endpoints. |
| C436 | The discovered type describes the address space of the interface | Violated: the offset found by the walk is not used, so the registers of an endpoint in a window which begins at 0x1000 are discovered at 0. Proved if the endpoint is at address 0 of every interconnect; proved that success means exactly one endpoint. |
| C438 | USB versions are converted to numbers and back | Violated: 2.x is accepted as 0x680, and numbers with digits above 9 share a string (0x1b10 and 0xb110). Proved for decimal digits; strings of another shape are refused. |
| C439 | The USB/IP server lists devices of every version | Violated: KeyError for 3.1, 3.2, 4.0 and for every version with a non-zero last digit; 3.0 is listed with the number of high speed. Proved: exactly 1.0, 1.1, 2.0 and 3.0 are listed among the versions of two digits. |
| C441 | USB descriptors announce valid packet sizes | Violated: 128 is accepted for endpoint 0, and any size from 64 (for example 100) for the bulk endpoints because only min(64, size) is checked. Proved: endpoint 0 of the virtual COM port has a valid size; sizes below 64 are valid. |
| C442 | The announced power is sufficient | Violated for odd currents, which are rounded down. Proved: exact for even ones, 1 mA less for odd ones, refused from 512 mA. |
| C443 | Requests of descriptors name the asked descriptor | Violated for indexes above 255, which are not refused and change the type. Proved for indexes below 256. |
| C445 | Static loop control executes the body for every index from ITERATIONS - 1 to 0 | The full statement is false: the port index does reach 0, but body.vld is 0 in that clock, so the body gets no transaction with index 0 (loop_violated); with ITERATIONS = 1 the body is never executed (loop_one), and the loop runs once after reset without a start. Proved: for ITERATIONS >= 2 the order from ITERATIONS - 1 to 1, one loop per start, end by a break (loop_partial), and termination (loop_ends). |
| C449 | getSizeWidth is wide enough for the number of bytes of the longest burst | False for words which are not a power of two of bytes, e.g. 3 words of 24 bits (width_violated). Proved for every power of two of bytes and every maxLen (width_partial). |
| C450 | create_addr_req of the AXI3 and AXI4 agents drives every signal with its argument | False for ID_WIDTH = 0: the interface has no id signal but the agents read it (create_violated). Proved for every ID_WIDTH > 0. |
| C451 | AxiBuilder.buff_cdc gives each clock port the frequency of the clock connected to it | False for different clocks: AxiBuffCdc gives M_FREQ to clk and S_FREQ to m_clk, so the frequencies are swapped (cdc_violated); right exactly if both are the same (cdc_partial). The accepted depths are proved (cdc_accepted). |
| C453 | AxiBuilder.to_axi ends with an interface of the class which was asked for | False: Axi4 asked to become Axi3Lite becomes Axi4Lite, and Axi4Lite is not converted to Axi4 with the default id_width = 0 because the bridge drives an id signal which does not exist (to_violated). to_partial lists exactly the conversions which work, to_other those which silently give another class. |
| C455 | CHECK of each CRC configuration is the checksum of 123456789 | False for CRC_5_EPC: INIT = 9 of the catalogue is missing, the checksum is 6 and not 0 (check_epc, check_epc_init). Proved for all others. |
| C456 | RESIDUE of each CRC configuration is what a receiver finds after any message with its checksum | For every configuration the register is the same after all messages (res_const). RESIDUE of CRC_5_USB and CRC_32 is that register without the reflection, contrary to the others (res_two, res_violated); all others are right (res_partial). |
| C459 | Fields of the IPv4, IPv6 and TCP headers are the bits of the standards | Violated by the code: IPv4 flags and fragmentOffset (right only if bytes 6 and 7 were exchanged), IPv6 version, trafficClass and flowLabel, TCP doff and reserved1, all TCP flags, and IP_FLAGS.MORE_FRAGMENTS, which is the reserved bit. All other fields are proved right. |
| C461 | Ethernet addresses written as text are read back | The round trip and the form of the text are proved for all addresses. Violated by the code: a text with another number of parts is accepted; proved instead: one byte for each part. Signs, spaces, underscores and prefixes which int(x, 16) accepts are not modelled. |
| C462 | Fields of rte_mbuf are at the documented offsets | All fields are right. Violated by the code: the padding of 28 bytes at the end is missing, the struct has 100 bytes. |
| C463 | Commands of ULPI are decoded as they were made | Violated by the code: NOPID is recognised as a packet with the PID 0. All other parts are proved. |
| C464 | Addresses of ULPI registers and their set and clear addresses | Violated by the code: set_of is a class method without a parameter for the class and raises for any arguments; clr_of is an ordinary method and works on an instance only, where it is proved right. Addresses are proved. |
| C466 | Control characters of XGMII are detected in each lane | Violated by the code: the alignment equal to the number of lanes is refused (so an interface with one lane can not exist) and numbers which do not divide it are accepted. Detection is proved. |
| C469 | LeadingZero finds the lowest zero bit | Violated by the code: only the lowest 8 bits are searched and the output is 7 if there is no zero among them. Proved for a zero among the lowest 8 bits. |
| C470 | Accepted parameters of MMCME2_ADV are legal | Violated by the code: the shortest period is rounded down to whole ps, so an input up to 1066.1 MHz is accepted. Proved if no used input is faster than 1066 MHz. Numbers are fixed point, rounding of floats and types of boolean parameters are not modelled. |
| C471 | Legal parameters of MMCME2_ADV are accepted | Violated by the code: a configuration which uses the second input only is refused, so the check that one of them is not 0 never decides. Proved for all configurations with the first input used. |
| C479 | A memory space master which raises leaves no request | Holds for Mi32 and BRAM port. Violated for Avalon-MM: _read with onDone appends the request before it raises. |
| C48 | Axi4S_en switches only at frame boundaries | violated: framePending is never set so en=0 stops inside of a frame; words pass unchanged exactly when en is set |
| C480 | Queues of a memory space master tell the calls | Holds for Mi32 and Avalon-MM. Violated for AXI-Lite (order of a read and a write is lost) and for the BRAM port (the mask is dropped). |
| C481 | HandshakedFifo can be built for all documented parameters | Violated: EXPORT_SPACE without EXPORT_SIZE raises AttributeError (the type of self.size is read). Proved for all other combinations. |
| C482 | HandshakedFifo rejects INIT_DATA longer than DEPTH | Violated: the assertion compares len(INIT_DATA) with itself; proved that accepted data fit exactly if they are not longer than DEPTH. What the hwt library does with a too long initial value of the memory is not modelled. |
| C483 | HsFifoAsync can be built for DEPTH 2^k+1 | Violated: the exports always raise NotImplementedError of FifoAsync; INIT_DATA are ignored, with DEPTH words of them dataOut is valid after reset without a word. |
| C484 | setEnable of the AXI agent reaches all channels | Violated: a repeated value is not propagated, so a channel disabled alone stays disabled after setEnable(True). Proved for changes of the flag and for histories without a channel set alone. |
| C487 | IpifAgent acknowledges exactly finished operations | Violated: with READ_LATENCY 1 a read just after a read is acknowledged at once without data, as rdack is not cleared while the agent waits. Proved exact without latencies, and in general that a finished operation is acknowledged and that a wrong acknowledge only stays from the operation before. |
| C488 | IpifAgent checks that a request is stable | Violated: data and byte enables are not compared in the last cycle of a write (the phase was already changed). Proved for all other cycles and signals. |
| C50 | BusStaticRemap hardware equals its reference translation | Violated: a region aligned on both sides uses its output offset as an unshifted address prefix (remap_violated). Proved for maps without such a region moved to non-zero offset, for every address. |
| C55 | HandshakedFifo INIT_DATA comes out first | proved for len(INIT_DATA) <= DEPTH-2; DEPTH-1 and DEPTH are violated by the code, counterexamples proved |
| C57 | FifoDrop commit and discard are qualified by en | Holds for commit; violated by the code for discard, for every depth (proved negation). |
| C58 | FifoDrop commit during wait | Violated by the code (proved negation, depth 2); without commits during wait fifoDrop_correct_partial applies. |
| C59 | FifoCopy never delivers words which were not written | Violated for a replay request of an empty frame; proved otherwise. |
| C60 | FifoAsync never stores more than DEPTH words | Proved for DEPTH=2^k, k>=1; false for DEPTH=1, which the assertions accept. |
| C62 | BcdToBin counter constant fits its register | violated for BCD_DIGITS=1 and 19; holds whenever the result width is not a power of two |
| C65 | Interconnect address width reaches every slave word | Violated twice: uses the last listed slave instead of the highest one, and is one bit short if the address of the last word is a power of two. Proved otherwise. |
| C67 | SimRam.malloc refuses what it cannot allocate | Violated: the exception for a not aligned address is created but not raised, a partial cell is not allocated. Proved for cell multiples. |
| C68 | Fifo ignores en asserted during wait | Violated: the loop flag is driven by en and not by fifo_write, a write to a full fifo together with a read at the last address leaves the fifo looking full. Proved for histories without a refused write in the cycle of a read. |
| C70 | No timer ticks while its reset is active | False as stated: with periods [2,4] the low-bit-shared timer ticks during reset. Proved for timers with an own counter. |
| C72 | UartRx receives each frame exactly once | False for frames without pause (receiver drifts one cycle per byte). Proved when the line stays high at least one extra clock cycle after each stop bit. |
| C73 | UART loopback | False when FREQ/BAUD is not a multiple of OVERSAMPLING (FREQ=15*BAUD, OS=8). Proved for exact ratios. |
| C75 | HandshakedCdc transfers words exactly once and in order | Violated if the consumer stalls: dout_vld_delayed is set before the data register is loaded, so a stalled consumer gets an undefined word first, and the real word can be lost. Proved for a consumer which is always ready, for every interleaving of the clocks. |
| C79 | VldSyncedCdc transfers each word once | Violated: the output data register is enabled two cycles after the word was in the input register, so it takes a later word; with a faster output clock a word comes out several times. Proved: with equal clocks a word held for two more cycles is transferred. |
| C80 | PseudoLru does not replace what was just used | mark_use_many never reads its argument (the last level of lru nodes is treated as the leaves): the new state is independent of the used ways, the used way may be the next victim and with 4 ways two ways are never victims. Proved positively: the index is the number of a way. |
| C81 | PseudoLru follows its documented table | The last level bit is inverted, so get_lru is the documented line with the last bit flipped, for each state. The assertion of __init__ refuses each 2^k ways with k >= 3. Proved positively: the documented half of the lines is selected. |
| C84 | FifoOutOfOrderReadFiltered lookup finds stored keys | The lookup result is masked with item_write_lock (not its negation): only items which can not be updated any more are reported, waiting items are missed; the AxiWriteAggregator then masks with the negation so no found item is ever merged. Proved positively: items being read are reported exactly by their key. |
| C85 | FifoOutOfOrderRead index ports are as wide as the pointers | log2ceil(ITEMS - 1) differs from log2ceil(ITEMS) exactly for ITEMS = 2^k + 1 (k >= 1); equal for all other sizes. |
| C86 | Write dispatcher sends each item as one burst of the announced length | The stream theorem holds for each size with bursts of 2^log2ceil(N) words; this equals aw.len + 1 exactly if the number N of bus words in a cache line is a power of two, otherwise more words than announced are sent. |
| C87 | Write dispatcher offers the address without waiting for ready | bus_ack requires aw.ready before the first word is read and before aw.valid is raised: with a slave which waits for aw.valid nothing is ever offered (all sizes, all other inputs). Positive: with ready set the address is offered in the next cycle. |
| C89 | MI32 to AXI4Lite: each read is done exactly once | ar.valid does not wait for the write data as ardy does, a read behind stalled write data is sent again each cycle; exact if no write data wait when a read is requested, never lost |
| C90 | AXI4Lite to MI32: accepted requests are issued in order | the address register is overwritten by a not yet accepted request while the slave is busy, and a request accepted together with an answer is dropped; in order in an environment without such overlaps |
| C91 | AXI4Lite to MI32: a write response means that the write was done | if the data come after the address the response is sent and the write is dropped; one response per write in the gentle environment |
| C92 | AXI4Lite to MI32: no answer is lost | the second answer overwrites the first one which was not taken; in order if the master is always ready |
| C93 | MI32 endpoint answers each read | a read outside of the mapped range is accepted but never answered |
| C97 | AxiLiteEndpoint reads memories correctly | a write to the same memory in the cycle after the request replaces the data of the read by the output of the memory for the written item; correct if the memory is not written between request and response |
| C98 | AxiLiteEndpoint keeps read data stable | the read data register follows the memory output and directly mapped words are not registered; stable for memories which are not written meanwhile |
