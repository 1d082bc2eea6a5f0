{"id": "C01", "title": "Saving settings or presets is crash-consistent", "statement": "If power is lost at any point while a settings or preset file is being saved (after any prefix of the writes reached the card), the next load sees either exactly the previously saved contents or exactly the new contents, never a mixture or a truncated file, given that the checksum rejects partially written data.", "quantifier": "every previous history of completed saves, every new content, every crash point inside the save", "why_tests_cant": "The number of crash points and earlier histories is unbounded; a unit test samples a few and cannot cover torn headers or the alternation between the two files.", "anchors": ["common/file_reader.h:SafeFileHeader", "common/file_reader.h:FileValidator", "common/file_reader.h:FileSelector", "common/file_reader.h:BufferedFileWriter", "common/config_file.h:ConfigFile::WriteToDir", "common/config_file.h:ConfigFile::ReadINIFromDir"]}
{"id": "C02", "title": "After any number of saves a load returns the last save", "statement": "For every sequence of completed saves followed by a load, the load returns the contents of the most recent save, whichever of the two alternating files it went to.", "quantifier": "every length and content of the save sequence (iteration counter below 2^31)", "why_tests_cant": "Depends on the whole history of alternating files and iteration numbers.", "anchors": ["common/file_reader.h:FileSelector", "common/config_file.h:ConfigFile::WriteToDir", "common/config_file.h:ConfigFile::TryValidator"]}
{"id": "C03", "title": "String values survive being written to and read from a config file", "statement": "Writing a key with a string value and reading it back yields the same string, including newlines, tabs and backslashes; one written line is always exactly one line in the file, so no value can inject another key. (Values beginning with blanks lose the leading blanks.)", "quantifier": "every string value", "why_tests_cant": "Infinitely many strings; escape sequences can combine in unexpected ways.", "anchors": ["common/file_reader.h:FileReader::readString", "common/file_reader.h:BufferedFileWriter::write_key_value"]}
{"id": "C04", "title": "Integers survive being written and read", "statement": "Reading the decimal text of an integer yields that integer, for every representable value, and stops exactly at the first character that is not a digit.", "quantifier": "every integer in the representable range and every following text", "why_tests_cant": "2^32 values times arbitrary trailing context.", "anchors": ["common/file_reader.h:FileReader::readIntValue"]}
{"id": "C05", "title": "Config file reading: last assignment wins, the rest default", "statement": "After reading a config file every known variable holds the value of its last assignment line, variables not mentioned hold their default, unknown names, comment lines and lines without '=' have no effect, and nothing after an 'end' line has an effect.", "quantifier": "every sequence of lines", "why_tests_cant": "Arbitrary file contents.", "anchors": ["common/config_file.h:ConfigFile::Read", "common/config_file.h:ConfigFile::SetVariable"]}
{"id": "C06", "title": "Preset list editing behaves like list editing", "statement": "Saving, inserting, deleting, moving and duplicating a preset act on the stored preset list exactly like replacing, inserting, removing or moving one element; every other preset keeps its contents and relative order.", "quantifier": "every preset list and every edit position", "why_tests_cant": "The operation streams through the file while copying; each combination of current position, target position and list length is a different path.", "anchors": ["common/current_preset.h:CurrentPreset::SaveAtLocked", "common/current_preset.h:CurrentPreset::Load"]}
{"id": "C07", "title": "Preset navigation wraps around", "statement": "Selecting the preset after the last one selects the first one, selecting preset -1 selects the last one, and repeatedly selecting 'next' visits every preset once per round.", "quantifier": "every preset list length and start position", "why_tests_cant": "Unbounded list lengths.", "anchors": ["common/current_preset.h:CurrentPreset::Load", "common/current_preset.h:CurrentPreset::SetPreset"]}
{"id": "C08", "title": "A saved preset reads back identically", "statement": "Writing a preset (font, track, styles per blade, name, variation) and reading the text back yields the same preset, and reading consumes exactly that preset so the next one in the file starts where it should.", "quantifier": "every preset whose values have no leading blanks, followed by any other presets", "why_tests_cant": "Arbitrary strings in several fields, arbitrary file tails.", "anchors": ["common/current_preset.h:CurrentPreset::Read", "common/current_preset.h:CurrentPreset::Write"]}
{"id": "C09", "title": "Style arguments: set then get", "statement": "Replacing argument N of a style string and asking for argument N returns the new value; all other arguments read as before.", "quantifier": "every style string, argument number and value without blanks", "why_tests_cant": "Arbitrary numbers of words and arguments.", "anchors": ["styles/style_parser.h:StyleParser::SetArgument", "styles/style_parser.h:StyleParser::GetArgument"]}
{"id": "C10", "title": "Word helpers split text into its words", "statement": "Skipping words one after another visits the blank-separated words of a text in order, each exactly once; prefix and suffix tests agree with the mathematical notion.", "quantifier": "every text", "why_tests_cant": "Arbitrary strings.", "anchors": ["common/strfun.h:SkipWord", "common/strfun.h:SkipSpace", "common/strfun.h:CountWords", "common/strfun.h:FirstWord"]}
{"id": "C11", "title": "Text comparison is a consistent case-insensitive order", "statement": "Comparing two texts is a total preorder on case-folded texts: reflexive, antisymmetric up to case, transitive, and all six comparison operators agree with it.", "quantifier": "every pair and triple of texts", "why_tests_cant": "Consistency laws quantify over triples of arbitrary strings.", "anchors": ["common/string_piece.h:StringPiece"]}
{"id": "C12", "title": "Search-path patterns: generate then recognise", "statement": "Filling a name into every '*' of a font search-path pattern and matching the result against the same pattern gives the name back; whatever the matcher accepts is exactly such a filled-in pattern, and the buffer computed for it is exactly long enough.", "quantifier": "every pattern with at least one '*', every name", "why_tests_cant": "Arbitrary patterns and names, including names containing '*' or parts of the pattern.", "anchors": ["common/strfun.h:format_pattern", "common/strfun.h:match_pattern"]}
{"id": "C13", "title": "Argument parser selects the right word", "statement": "Asking a style-argument parser for argument N yields the N-th word of the argument string, '~' and missing words yield the supplied default, and shifting by k renumbers arguments by k.", "quantifier": "every argument string, N and k", "why_tests_cant": "Arbitrary strings and numbers of arguments.", "anchors": ["common/arg_parser.h:ArgParser"]}
{"id": "C14", "title": "Bit set behaves like a set of numbers", "statement": "Set, clear, test, count, next, previous, n-th and shift on the fixed-size bit set agree with the corresponding operations on a finite set of numbers.", "quantifier": "every set size, every content, every argument", "why_tests_cant": "2^SIZE states.", "anchors": ["common/arg_parser.h:BitSet"]}
{"id": "C15", "title": "Sorted menu shows the n-th smallest line", "statement": "The sorted-line menu helper returns for index n the n-th smallest line of the command output, whatever order the lines are produced in and whatever index was asked for before, and the search always terminates.", "quantifier": "every multiset of lines, every order of output, every sequence of queries", "why_tests_cant": "The search strategy's progress depends on the whole output order.", "anchors": ["common/command_parser.h:SortedLineHelper"]}
{"id": "C16", "title": "Path joining and splitting", "statement": "Joining a directory and a file name always yields exactly one separator between them, and taking the directory part undoes appending a component.", "quantifier": "every directory and file name", "why_tests_cant": "Arbitrary strings.", "anchors": ["common/lsfs.h:PathHelper"]}
{"id": "C17", "title": "Circular buffer is a FIFO queue", "statement": "Any sequence of writes and reads that respects the reported free space and fill level returns the written elements in order without loss, duplication or reordering; size and free space always add up to the capacity.", "quantifier": "every operation sequence, every capacity", "why_tests_cant": "Unbounded histories with index wrap-around.", "anchors": ["common/circular_buffer.h:CircularBuffer"]}
{"id": "C18", "title": "Wrap-around time comparison", "statement": "Comparing two wrapping counters gives the true order of the underlying unbounded times whenever they are less than half the range apart.", "quantifier": "every pair of times", "why_tests_cant": "2^64 pairs, all wrap positions.", "anchors": ["common/cyclint.h:Cyclint"]}
{"id": "C19", "title": "Modulo and clamping", "statement": "MOD(x, m) is the unique representative of x modulo m in [0, m) for every integer x, also negative ones; clamping returns the nearest value of the interval.", "quantifier": "every x and every positive m / every interval", "why_tests_cant": "All 32-bit values.", "anchors": ["common/math.h:MOD", "common/math.h:clampi32", "common/math.h:clamptoi16", "common/math.h:clamptoi24"]}
{"id": "C20", "title": "Stripe and range overlap", "statement": "The overlap of a range with a periodic stripe pattern equals the number of points of the range covered by stripes.", "quantifier": "every range, stripe and period", "why_tests_cant": "Unbounded parameters; closed form versus counting.", "anchors": ["common/range.h:Range"]}
{"id": "C21", "title": "Register bit-fields are independent", "statement": "Writing a field of a register and reading it returns the written value, and all other bits keep their value.", "quantifier": "every register value, field position and width", "why_tests_cant": "All register contents.", "anchors": ["common/bitfield.h:BitField"]}
{"id": "C22", "title": "Update loop registry", "statement": "Every registered component that is not unregistered is called exactly once per round, unregistered ones never, whatever the order of registrations; high-frequency components additionally form a separately served group.", "quantifier": "every history of register/unregister operations", "why_tests_cant": "Unbounded histories of pointer-list surgery.", "anchors": ["common/looper.h:Looper"]}
{"id": "C23", "title": "Command dispatch", "statement": "A command is offered to registered handlers, newest first, and stops at the first one that accepts it; unregistered handlers never see it.", "quantifier": "every history of registrations and every command", "why_tests_cant": "Unbounded histories.", "anchors": ["common/command_parser.h:CommandParser"]}
{"id": "C24", "title": "Shared pointers free exactly once", "statement": "A value held by shared pointers is destroyed exactly when the last pointer to it goes away: never while another pointer still refers to it and never twice.", "quantifier": "every history of pointer creation, copying, assignment and destruction", "why_tests_cant": "Unbounded histories and aliasing patterns.", "anchors": ["common/linked_ptr.h:LinkedPtr", "common/ref.h:RefPtr"]}
{"id": "C25", "title": "Moving average filter", "statement": "The box filter reports the sum of the last N samples divided by N once N samples were pushed.", "quantifier": "every sample history and every N", "why_tests_cant": "Unbounded histories.", "anchors": ["common/box_filter.h:BoxFilter"]}
{"id": "C26", "title": "Button/event identifiers are unique", "statement": "Two different combinations of button, event and modifiers never get the same event identifier.", "quantifier": "every combination", "why_tests_cant": "Combination space is large.", "anchors": ["common/events.h:EVENTID"]}
{"id": "C27", "title": "Colour mixing stays between its inputs", "statement": "Mixing two colours gives the first at 0 and the second at full weight, and every channel stays between the two inputs for every weight in between.", "quantifier": "every pair of colours and weight", "why_tests_cant": "2^112 inputs for 16-bit colours.", "anchors": ["common/color.h:Color16::mix", "common/color.h:Color8::mix"]}
{"id": "C28", "title": "Layer compositing is well-behaved", "statement": "Painting a layer over another keeps every channel in range, painting a transparent layer changes nothing, painting an opaque layer hides what is below, and an opaque base stays opaque.", "quantifier": "every pair of layers", "why_tests_cant": "All 16-bit premultiplied colours.", "anchors": ["common/color.h:operator<<", "common/color.h:RGBA", "common/color.h:RGBA_um", "common/color.h:SimpleColor"]}
{"id": "C29", "title": "LED byte order", "statement": "For every configured LED byte order the bytes sent are the channels in exactly that order, and inverting the byte order undoes it.", "quantifier": "every byte order and colour", "why_tests_cant": "All colours times all orders.", "anchors": ["common/color.h:Color8::num_bytes", "common/color.h:Color8::getByte", "common/color.h:Color8::combine_byteorder", "common/color.h:Color8::invert_byteorder"]}
{"id": "C30", "title": "Effect history", "statement": "The list of recent effects a style sees holds the effects pushed since the last font change (lockup effects as drag effects while dragging, clash-strength updates not at all), newest first, at most the ten newest, and none older than seven seconds.", "quantifier": "every history of effect pushes, lockup states and looks at the list, with looks at least every 4287 seconds", "why_tests_cant": "Unbounded histories.", "anchors": ["common/saber_base.h:SaberBase::PushEffect", "common/saber_base.h:SaberBase::GetEffects"]}
{"id": "C31", "title": "On/off notifications", "statement": "Each blade is on or off as the last request concerning it said; a request for given blades notifies every registered component exactly once, naming exactly the blades that change, and notifies nobody if nothing changes; a request for the whole saber always notifies.", "quantifier": "every history of on/off requests, every set of blades, every history of component registrations", "why_tests_cant": "Unbounded histories.", "anchors": ["common/saber_base.h:SaberBase::TurnOn", "common/saber_base.h:SaberBase::TurnOff"]}
{"id": "C32", "title": "One-shot effect detectors fire once per effect", "statement": "A style's effect detector reports only effects that were pushed, of its kind (the main blade's clash detector also takes stabs a style does not handle) and on its blade, in strictly increasing time and hence never twice; and a new effect is reported when the detector is next asked.", "quantifier": "every history of pushes and polls", "why_tests_cant": "Unbounded interleavings of pushes and polls.", "anchors": ["blades/blade_base.h:OneshotEffectDetector"]}
{"id": "C33", "title": "Debounce", "statement": "The debounced button reads 'pressed' exactly when the input has read pressed at every call since the last released sample, at least twice, and longer than the time limit; it reads 'released' at once at a released sample and then for at least the time limit.", "quantifier": "every sampling history", "why_tests_cant": "Unbounded sequences of samples and times.", "anchors": ["buttons/debounced_button.h:DebouncedButton"]}
{"id": "C34", "title": "Button event grammar", "statement": "As long as a button is polled at least every 2 ms, every debounced press produces exactly one PRESSED and one RELEASED event; the held events come in the order HELD, MEDIUM, LONG at most once per press and each at the first poll after its limit, clicks are reported at release according to the duration, a saved click follows once if the short click was not handled and no new press came first, a press that other code took over gives no click, and the press count is that of presses that start within 500 ms of each other, capped at four.", "quantifier": "every history of contact bounce, presses, releases, polling times at most 2 ms apart, answers of the prop and code taking presses over", "why_tests_cant": "Unbounded timed histories.", "anchors": ["buttons/button_base.h:ButtonBase"]}
{"id": "C35", "title": "Rotary encoder counts detents", "statement": "Turning the rotary knob produces one event per detent in the right direction; bouncing between two neighbouring phases never produces drift.", "quantifier": "every sequence of quadrature phases", "why_tests_cant": "Unbounded histories.", "anchors": ["buttons/rotary.h:Rotary"]}
{"id": "C36", "title": "Audio ring buffer delivers the decoded stream", "statement": "The interrupt-side reader sees exactly the samples produced by the decoder, in order, without loss or duplication, under every interleaving of producer and consumer.", "quantifier": "every interleaving of filler and reader steps and every chunk size", "why_tests_cant": "Unbounded interleavings.", "anchors": ["sound/buffered_audio_stream.h:BufferedAudioStream", "sound/circular_buffer.h"]}
{"id": "C37", "title": "Volume ramps never overshoot", "statement": "A volume ramp moves monotonically towards its target, reaches it exactly within the configured number of samples, and never passes it.", "quantifier": "every start value, target, speed and number of steps", "why_tests_cant": "Unbounded run lengths.", "anchors": ["sound/click_avoider_lin.h:ClickAvoiderLin", "sound/volume_overlay.h:VolumeOverlay"]}
{"id": "C38", "title": "Mixer output is in range and sounds add linearly below the limiter", "statement": "The audio mixer output always fits in a 16-bit sample whatever the number and level of inputs, and the integer square root used by the limiter is exact.", "quantifier": "every number of channels and every sample value", "why_tests_cant": "Unbounded numbers of samples.", "anchors": ["sound/dynamic_mixer.h:AudioDynamicMixer"]}
{"id": "C39", "title": "Sound queue", "statement": "Queued sounds are played in the order they were queued, each once, and a full queue drops new sounds rather than overwriting old ones.", "quantifier": "every history of queueing and playing", "why_tests_cant": "Unbounded histories.", "anchors": ["sound/sound_queue.h:SoundQueue"]}
{"id": "C40", "title": "Sound file scanning", "statement": "Whatever order a directory is listed in, the sound effect ends up with the lowest and highest file number found, generates the file names that were seen, and random selection only picks files in range.", "quantifier": "every directory listing", "why_tests_cant": "Arbitrary file sets in arbitrary order.", "anchors": ["sound/effect.h:Effect::Scan", "sound/effect.h:Effect::GetName", "sound/effect.h:Effect::RandomFile"]}
{"id": "C41", "title": "Image compression round-trip", "statement": "Decoding the encoder's output for any image yields exactly that image.", "quantifier": "every pixel sequence", "why_tests_cant": "Arbitrary length pixel sequences and hash collisions.", "anchors": ["pqoi/pqoi.h:PqoiEncoder", "pqoi/pqoi.h:PqoiDecoder"]}
{"id": "C42", "title": "Streaming image decoding is independent of buffer sizes", "statement": "However the compressed data is split into input buffers and however the output is requested in pieces, the decoder yields the same pixels, and it never writes more than the documented slack past the requested end.", "quantifier": "every byte sequence, every split", "why_tests_cant": "Exponentially many splits.", "anchors": ["pqoi/pqoi.h:PqoiStreamingDecoder"]}
{"id": "C43", "title": "POV run-length coding round-trip", "statement": "Decoding the run-length encoding of any byte sequence yields that sequence. (Fails for long back-references; proved where every copied run is shorter than 256.)", "quantifier": "every byte sequence", "why_tests_cant": "Arbitrary inputs.", "anchors": ["pov_tools/rle.h:rle_encode_internal", "pov_tools/rle.h:rle_decode"]}
{"id": "C44", "title": "NEC infrared round-trip", "statement": "Every 32-bit NEC code sent is received as the same code, for every pulse distortion within the decoder's tolerance, and repeat codes are recognised.", "quantifier": "every code and every admissible timing jitter", "why_tests_cant": "2^32 codes times continuous jitter.", "anchors": ["ir/nec.h:NECEncoder", "ir/nec.h:NECDecoder"]}
{"id": "C45", "title": "RC6 infrared round-trip", "statement": "Every RC6 code sent is received as the same code for every pulse distortion within tolerance.", "quantifier": "every code and admissible jitter", "why_tests_cant": "Code space times jitter.", "anchors": ["ir/rc6.h:RC6Encoder", "ir/rc6.h:RC6Decoder"]}
{"id": "C46", "title": "Transitions run from the old colour to the new one", "statement": "A timed transition shows the first colour at its start and the second colour once its duration has elapsed, its progress never goes backwards, and a sequence of transitions plays each part in order.", "quantifier": "every duration and every sequence of frame times", "why_tests_cant": "Unbounded frame schedules.", "anchors": ["transitions/base.h:TransitionBaseX", "transitions/concat.h:TrConcat", "transitions/fade.h:TrFadeX"]}
{"id": "C47", "title": "Wipes light exactly the completed fraction", "statement": "During a wipe the total light of the second colour over all LEDs equals the progress of the wipe, LEDs are completed in order, and each LED's share is in range.", "quantifier": "every LED count and progress", "why_tests_cant": "Unbounded parameters.", "anchors": ["transitions/wipe.h:TrWipeX", "common/range.h:Range"]}
{"id": "C48", "title": "Integer style functions stay in range", "statement": "The arithmetic style functions (sum, product, scale, smooth step, sections, modulo counters and so on) compute their documented value and keep results in 0..32768 when their inputs are.", "quantifier": "every input value and LED index", "why_tests_cant": "All 32-bit inputs.", "anchors": ["functions/mult.h", "functions/scale.h", "functions/smoothstep.h", "functions/circular_section.h", "functions/linear_section.h", "functions/layer_functions.h", "functions/increment.h", "functions/mod.h", "functions/divide.h"]}
{"id": "C49", "title": "Threshold pulses fire once per excursion", "statement": "A threshold pulse fires exactly once each time its input rises to the threshold after having been below the hysteresis level, and never otherwise.", "quantifier": "every input sequence", "why_tests_cant": "Unbounded input histories.", "anchors": ["functions/increment.h:ThresholdPulseF"]}
{"id": "C50", "title": "Slow-changing and peak-hold functions", "statement": "The slow-change function moves towards its input at no more than the configured speed and never overshoots; the peak-hold value is never below the current input.", "quantifier": "every input history, speed and frame time", "why_tests_cant": "Unbounded histories.", "anchors": ["functions/change_slowly.h:ChangeSlowlyF", "functions/hold_peak.h:HoldPeakF"]}
{"id": "C51", "title": "Trigger envelope", "statement": "The trigger function goes through delay, attack, sustain and release in order, each for its configured time irrespective of the frame rate, and is off otherwise; its value is in 0..32768.", "quantifier": "every frame schedule and configuration", "why_tests_cant": "Unbounded frame schedules.", "anchors": ["functions/trigger.h:TriggerSVF"]}
{"id": "C52", "title": "Sub-blades address exactly their own LEDs", "statement": "Each LED index of a sub-blade maps to a distinct LED inside the declared range of the physical blade; disjoint declared ranges never touch each other's LEDs.", "quantifier": "every range, stride, direction and LED index", "why_tests_cant": "Unbounded parameters.", "anchors": ["blades/sub_blade.h:SubBladeWrapper", "blades/sub_blade.h:SubBladeReverse", "blades/sub_blade.h:SubBladeWithStride", "blades/sub_blade.h:SubBladeZZ"]}
{"id": "C53", "title": "Shared power pins", "statement": "A power pin shared between blades is on exactly while at least one of the blades wants it on.", "quantifier": "every history of power requests by any number of blades", "why_tests_cant": "Unbounded histories.", "anchors": ["blades/power_pin.h:PowerPINS"]}
{"id": "C54", "title": "Physical blade activation follows sub-blades", "statement": "A physical blade is active exactly while at least one of its sub-blades is, and is activated and deactivated exactly once per such period.", "quantifier": "every history of sub-blade activations", "why_tests_cant": "Unbounded histories.", "anchors": ["blades/sub_blade.h:SubBladeWrapper::Activate", "blades/sub_blade.h:SubBladeWrapper::Deactivate"]}
{"id": "C55", "title": "Menu navigation", "statement": "Next and previous in a menu are inverse to each other, wrap around and stay in range; a combined menu forwards each position to the right sub-entry.", "quantifier": "every non-empty menu (up to 65535 positions), position, step sequence and nesting", "why_tests_cant": "Unbounded menu sizes.", "anchors": ["modes/menu_base.h:MenuBase", "modes/menu_list.h:MenuEntryConcat"]}
{"id": "C56", "title": "Mode stack", "statement": "Entering and leaving modes behaves like a stack: leaving a mode always returns to the mode that was active when it was entered, every mode gets its enter/return/leave callbacks in order, and leaving the outermost mode is the only step that goes wrong.", "quantifier": "every sequence of enter/leave operations in which no mode is entered while it is already open (in particular: every menu structure without cycles)", "why_tests_cant": "Unbounded histories.", "anchors": ["modes/mode.h:pushMode", "modes/mode.h:popMode"]}
{"id": "C57", "title": "Images with transparency survive encoding", "statement": "Encoding an image together with per-pixel alpha values and decoding it yields the same alphas and the same colours (fully transparent pixels may lose their colour); blending a decoded pixel onto a background computes old*alpha/32+new per colour channel without leaking between channels.", "quantifier": "all pixel arrays, all alpha arrays of the same length, all codec states, all memory contents behind the alpha array; all colour channel values and alphas", "why_tests_cant": "Run detection interacts with pixel coding state over arbitrarily long images and reads past the alpha array", "anchors": ["pqoi/pqoi.h: AlphaEncoder::encodePixelsWithAlpha, AlphaDecoder::DecodeBlockWithAlphas, alphaBlend"]}
{"id": "C58", "title": "Settings values survive saving and loading", "statement": "A numeric setting written to the settings file with its two decimals is read back as exactly the same number.", "quantifier": "every value with two decimals, every following text", "why_tests_cant": "Infinitely many values; sign and digit handling differ between writing and reading.", "anchors": ["common/file_reader.h:BufferedFileWriter::write_key_value_float", "common/file_reader.h:FileReader::readFloatValue"]}
{"id": "C59", "title": "Copying arguments between style strings", "statement": "Resetting a style string keeps only its identifier; copying arguments from one style string to another keeps the target's identifier and takes the source's arguments; the variant with a list of positions to keep leaves exactly those arguments of the target and takes every other one from the source; copying colours takes exactly the arguments that are colours on either side.", "quantifier": "every pair of style strings, every list of positions", "why_tests_cant": "Arbitrary strings of words and blanks and arbitrary lists of positions.", "anchors": ["styles/style_parser.h:ResetArguments", "styles/style_parser.h:CopyArguments", "styles/style_parser.h:CopyColorArguments"]}
{"id": "C60", "title": "LED signal bits", "statement": "For every data byte the signal generated for an LED strip is exactly its eight bits, highest first, each as the pulse of its kind.", "quantifier": "every byte and every pulse level", "why_tests_cant": "All bytes times all pin masks or timer values.", "anchors": ["blades/monopodws.h:MonopodWS", "blades/stm32l4_ws2811.h:WS2811PA8"]}
{"id": "C61", "title": "Hue rotation keeps brightness and saturation", "statement": "Rotating the hue of a colour by any angle keeps its brightest and darkest channel values, rotates in the right direction, and a full circle changes nothing.", "quantifier": "every 16-bit colour and every angle", "why_tests_cant": "2^48 colours times all angles.", "anchors": ["common/color.h:Color16::rotate", "common/color.h:Color16::f"]}
{"id": "C62", "title": "Dithering is unbiased and bounded", "statement": "Reducing a colour to 8 bits with dithering is off by at most one and a half level at each pixel, keeps black and white, is right on average over a block, and both implementations agree.", "quantifier": "every channel value and pixel position", "why_tests_cant": "All values at all positions on both implementations.", "anchors": ["common/color.h:Color16::dither", "common/color.h:color16_dither_matrix"]}
{"id": "C63", "title": "Drive levels", "statement": "The drive level chosen for an LED is the largest that exceeds no wanted channel, and the level and bytes sent to SPI pixels never wrap around.", "quantifier": "every colour pair; every colour", "why_tests_cant": "2^96 colour pairs.", "anchors": ["common/color.h:Color16::select", "blades/drive_logic.h", "blades/spiled_pin.h:OutColor"]}
{"id": "C64", "title": "Latching and floating switches", "statement": "A latching switch reports every change of its debounced signal exactly once, alternating on and off; a pin that floats when open changes state exactly at the eleventh contradicting measurement in a row.", "quantifier": "every sequence of readings", "why_tests_cant": "Unbounded histories of readings.", "anchors": ["buttons/latching_button.h:LatchingButtonTemplate", "buttons/floating_button.h:FloatingButtonBase"]}
{"id": "C65", "title": "Laser tag messages arrive and only real ones count", "statement": "Every laser tag message (team, damage) sent is recognised with the same team and damage for every admissible pulse distortion, and a hit is only ever reported when the pulses just received are exactly such a message with a valid checksum.", "quantifier": "every message sequence, jitter and noise before", "why_tests_cant": "Message space times jitter times preceding noise.", "anchors": ["ir/blaster.h:BlasterDecoder", "ir/blaster.h:BlasterEncoder"]}
{"id": "C66", "title": "No infrared pulse is lost between interrupt and decoder", "statement": "As long as the main loop keeps up, every pulse the interrupt handler sees is passed to the decoders exactly once, in order, with its length, whatever the interleaving of interrupts and main loop.", "quantifier": "every interleaving of pin changes, idle checks and deliveries", "why_tests_cant": "Interleavings of interrupts with the main loop cannot be enumerated.", "anchors": ["ir/receiver.h:IRReceiver"]}
{"id": "C67", "title": "Repeated transitions", "statement": "A transition repeated N times plays its transition completely N times, one play after the other, and is done after the last one.", "quantifier": "every transition, N and sequence of frame times", "why_tests_cant": "The number of plays depends on what state the inner transition is in when it is begun and on the frame times.", "anchors": ["transitions/loop.h:TrLoopNX", "transitions/loop.h:TrLoopN"]}
{"id": "C68", "title": "Selecting a transition", "statement": "Each time a selecting transition begins, exactly one transition of its list is begun and run and the others are left alone: the one with the number given by the function (modulo the length of the list), the next one in turn, or a random one.", "quantifier": "every list, every function value and every sequence of frames", "why_tests_cant": "The selection depends on the history; lists have any length and are stored as nested halves.", "anchors": ["transitions/select.h:TrSelect", "transitions/sequence.h:TrSequence", "transitions/random.h:TrRandom", "transitions/random.h:TrHelper2", "common/math.h:MOD"]}
{"id": "C69", "title": "Effect layers", "statement": "A layer that runs a transition on an effect is transparent until the effect, shows the transition from the frame of the effect on, is transparent again when the transition is done, and starts anew at the next effect.", "quantifier": "every transition, every sequence of frames and effects", "why_tests_cant": "Effects can come at any frame, also while a transition is running.", "anchors": ["styles/transition_effect.h:TransitionEffectL", "styles/transition_pulse.h:TransitionPulseL", "transitions/base.h:TransitionHelper"]}
{"id": "C70", "title": "Every sub-blade is rendered once per frame", "statement": "Once the sub-blades of a physical blade have their styles, each frame of the physical blade runs the style of every sub-blade exactly once, and the blade may power off only when all of them allow it.", "quantifier": "every configuration of sub-blades, every order of setting styles", "why_tests_cant": "Unbounded configurations.", "anchors": ["blades/sub_blade.h:SubBladeWrapper::run", "blades/sub_blade.h:SubBladeWrapper::SetStyle", "blades/sub_blade.h:SubBlade"]}
{"id": "C71", "title": "Blades sharing the pixel buffer never show each other's pixels", "statement": "However the loops of several WS2811 blades are interleaved with ignition, effects and blade changes, each frame sent on a blade's pin holds that blade's own latest rendering (or black), and a free buffer is used by the next blade that is ready.", "quantifier": "every number of blades, every interleaving", "why_tests_cant": "Unbounded interleavings.", "anchors": ["blades/ws2811_blade.h:WS2811_Blade::Loop", "blades/ws2811_blade.h:WS2811_Blade::Power", "blades/ws2811_blade.h:current_blade"]}
{"id": "C72", "title": "Blade power is cut only after the power-off delay", "statement": "A blade's power is switched off by its loop only if the blade was neither ignited nor had an effect for the whole power-off delay; a blade that is on keeps power and keeps rendering.", "quantifier": "every history of ignitions, effects, retractions and loop steps", "why_tests_cant": "Unbounded histories and time wrap-around.", "anchors": ["blades/ws2811_blade.h:WS2811_Blade::PowerOff", "blades/ws2811_blade.h:WS2811_Blade::Loop"]}
{"id": "C73", "title": "Cancelling a colour change or blade length change restores it", "statement": "Entering colour change (stepped or smooth) or the blade length menu, changing the value in any way and cancelling leaves the value exactly as it was; accepting keeps the last value shown; blade styles get one enter and one exit notice around the changes, and a stored length is between 1 and the number of LEDs.", "quantifier": "all starting values, all sequences of steps and twists", "why_tests_cant": "the number and mix of changes before cancelling is unbounded and the counters wrap", "anchors": ["modes/color_change_modes.h:SteppedVariationMode,SmoothVariationMode", "modes/smooth_mode.h:SmoothBase", "modes/settings_menues.h:ChangeBladeLengthBlade1", "common/saber_base.h:SetColorChangeMode"]}
{"id": "C74", "title": "The style menu offers every built-in style and starts at the current one", "statement": "Opening the menu that picks a built-in style for a blade and selecting without moving keeps the style, and every style of every preset can be reached.", "quantifier": "all numbers of blades and presets, all current styles", "why_tests_cant": "depends on the combination of blade count, preset count and position; coincides with the intended result for small set-ups", "anchors": ["modes/style_option_modes.h:SelectStyleMenu"]}
{"id": "C75", "title": "A spoken number is the number", "statement": "For every non-negative number the words requested from the sound font (or the built-in voice) are all words for which a recording exists, and read in the usual way (units, tens, hundred, thousand, million) they denote exactly that number; they are few enough to fit the speech queue. Rounding to two digits before speaking keeps the two leading digits and never exceeds the number.", "quantifier": "All non-negative 32-bit numbers, for both speech back ends", "why_tests_cant": "There are two billion inputs and a recursive algorithm; a test listens to a handful.", "anchors": ["common/sound_library.h:SayWhole", "sound/talkie.h:SayNumber", "sound/talkie.h:SayDigit", "sound/talkie.h:Say2Digits"]}
{"id": "C76", "title": "Serial lines are executed exactly once each", "statement": "For every byte stream, the commands executed are exactly those of the complete lines received, in order, each once, with the first word as command and what follows one blank as argument; empty lines do nothing, lines starting with # are comments, blanks around a line do not matter, an unfinished or interrupted line is not executed, and the line buffer is never overrun, whatever the line length and whatever the allocator answers.", "quantifier": "All byte streams, line lengths, newline conventions, disconnections and allocation failures", "why_tests_cant": "Line length, buffer growth, split points and allocation failures are unbounded; tests try a few short commands.", "anchors": ["common/serial.h:Parser::Loop", "common/serial.h:Parser::ParseLine"]}
{"id": "C77", "title": "A WAV file is played completely and only its sound", "statement": "For every well-formed WAV file of a supported format, whatever sizes the sound system asks for and however reads are aligned, the samples delivered by successive reads are exactly the sound of the file (data chunks only, channels mixed, converted to 44100 Hz) from the first to the last frame without gap or repetition, never more samples than asked for are delivered, and no file makes the player write outside its buffers or hang.", "quantifier": "All WAV files (chunks, lengths, formats, contents), all read request sizes and alignments", "why_tests_cant": "Frame and block boundaries, chunk layouts and request sizes interact; the combinations are unbounded.", "anchors": ["sound/playwav.h:PlayWav::loop", "sound/playwav.h:PlayWav::read", "sound/playwav.h:DecodeBytes4", "sound/playwav.h:UPSAMPLE_FUNC", "common/file_reader.h:AlignRead"]}
{"id": "C78", "title": "RFID tags are recognised exactly", "statement": "Whenever the parser is waiting (in particular after any pause of 200 ms, whatever came before), receiving the bytes of a tag triggers the commands listed for that tag once and in order; and a tag is only ever looked up when exactly the bytes of that tag, checksum included, have just been received without interruption.", "quantifier": "All tags, all byte streams with noise and pauses", "why_tests_cant": "2^40 tags and arbitrary noise; a test cannot show that no noise is ever taken for a tag.", "anchors": ["common/serial.h:RFIDParser::Loop", "common/serial.h:RFID_READCHAR"]}
{"id": "C79", "title": "The font search path is walked in the order written", "statement": "After selecting the directories a;b;c (each optionally ending in a slash), sounds are looked for in exactly these directories in the order written, and settings are read from exactly these directories in the opposite order so that the first one wins; no access leaves the path buffer.", "quantifier": "All lists of directory names, all buffer contents before", "why_tests_cant": "The buffer walk depends on the number and length of the names and on what the buffer held before; tests use one or two short names.", "anchors": ["ProffieOS.ino:last_current_directory/previous_current_directory", "props/prop_base.h:chdir", "common/config_file.h:ReadInCurrentDir"]}
{"id": "C80", "title": "One clash per hit, and none while asked to ignore", "statement": "Every hit with no button held is announced at once with its strength; the vibration following it is not announced but raises the strength; after being asked to ignore contacts, after button presses and after an announced clash nothing is announced for the agreed time and not longer; a contact while a button is held is announced once 3 ms later with the greatest strength, unless the button is released.", "quantifier": "All histories of contacts, button events, ignore requests and polls, at all times", "why_tests_cant": "The outcome depends on the timing of arbitrarily long histories and on the wrap of the millisecond counter.", "anchors": ["props/prop_base.h:Clash", "props/prop_base.h:Clash2", "props/prop_base.h:IgnoreClash", "props/prop_base.h:clash_pending1_"]}
{"id": "C81", "title": "Muting never loses the volume", "statement": "However often and in whatever order the prop is muted, unmuted, toggled or ignited silently, it is silent exactly when it should be muted and otherwise as loud as last set.", "quantifier": "All initial volumes and all histories of volume operations", "why_tests_cant": "The remembered volume depends on the whole history of operations.", "anchors": ["props/prop_base.h:SetMute", "props/prop_base.h:unmute_on_deactivation_", "common/dynamic_mixer.h:set_volume"]}
{"id": "C82", "title": "On and off reach exactly the blades asked for", "statement": "Ignition turns on exactly the blades asked for, once the pre-on sound is over, and announces it once; turning blades off turns off exactly those; after all are off nothing comes on until asked for; switching presets leaves the same blades on.", "quantifier": "All numbers of blades, all histories of ignition, retraction, preset changes and sounds ending", "why_tests_cant": "The interleavings of pre-on sounds with other operations are unbounded.", "anchors": ["props/prop_base.h:On", "props/prop_base.h:Off", "props/prop_base.h:SetPreset", "props/prop_base.h:on_pending_", "common/saber_base.h:TurnOn/TurnOff"]}
{"id": "C83", "title": "Twist and shake are signalled exactly for those movements", "statement": "A twist is signalled only if the prop was twisted one way and then the other within the time limits, a shake only after five alternating strokes within the limits; a proper twist after rest is always signalled; a prop at rest signals nothing.", "quantifier": "All histories of sensor classifications with all timings", "why_tests_cant": "Arbitrarily long histories of motion.", "anchors": ["props/prop_base.h:DetectTwist", "props/prop_base.h:DetectShake", "props/prop_base.h:DoGesture"]}
{"id": "C84", "title": "The blade configuration closest to the measured resistor is used", "statement": "The configuration selected is the first of those closest to the measurement and always exists; with a detect pin a configuration with blade is selected exactly when a blade is present; a scan noticing a change leads to the right configuration and to the right announcement.", "quantifier": "All measurements, all tables of configurations, all scan times", "why_tests_cant": "Tables and measurements are unbounded.", "anchors": ["props/prop_base.h:FindBestConfig/FindBladeAgain", "props/prop_base.h:ScanBladeIdNow/PollScanId", "blades/blade_id.h"]}
{"id": "C85", "title": "A blade is only powered down when it is dark and stays dark", "statement": "When a style tells the blade that the LED power may be cut, every LED is black, and would stay black in every later frame until the next ignition or effect; and a retracted blade is allowed to be powered down once the retraction is over.", "quantifier": "All style expressions of the modelled grammar, all histories of frames (ignition, retraction, effects, sensor values, times)", "why_tests_cant": "Styles nest arbitrarily and the decision depends on the whole history of frames.", "anchors": ["styles/blade_style.h:LayerRunResult/RunLayer", "styles/layers.h:Compose", "styles/alpha.h:AlphaL", "styles/inout_helper.h:InOutTrL/InOutHelperL", "functions/ifon.h:InOutFuncSVF", "styles/fire.h:StyleFire", "styles/cylon.h:Cylon", "styles/style_ptr.h:Style::run"]}
{"id": "C86", "title": "Ignition and retraction delays", "statement": "A style inside an ignition delay of D ms sees the blade as on exactly from the first frame more than D ms after ignition until retraction; inside a retraction delay it sees it as on until the first frame more than D ms after retraction.", "quantifier": "All delays, all histories of frames", "why_tests_cant": "All histories and all frame times, including re-ignition within the delay.", "anchors": ["styles/ignition_delay.h:IgnitionDelayBase", "styles/retraction_delay.h:RetractionDelayBase"]}
{"id": "C87", "title": "The I2C bus is given to one device at a time, in the order of the requests", "statement": "Devices sharing the I2C bus (motion sensor, displays) ask for it with I2CLockAndRun or I2CLock and return it with I2CUnlock, from the main loop and from interrupts. In every interleaving the bus is granted in the order of the accepted requests, once per request, to at most one device at a time; a request is accepted exactly if the device has none outstanding; no operation crashes, and whenever some device wants the bus some device has it (no request is lost).", "quantifier": "every sequence of lock, lock-and-run, unlock and RunLocked calls by any number of devices, with operations coming in between unlocking and the call of RunLocked", "why_tests_cant": "A test runs a handful of interleavings of two devices; the queue is a linked list edited from interrupts and must be right for every number of devices and every order of requests", "anchors": ["common/i2cdevice.h: I2CDevice::I2CLock, I2CLockAndRun, I2CUnlock", "common/i2cbus.h"]}
{"id": "C88", "title": "Monochrome displays show images, text and shapes exactly, without leaving the frame buffer", "statement": "An image file as wide as the display is shown upright and not mirrored, from PBM (top-down) and BMP (bottom-up) files; drawing a glyph, a text, a pixel, a line or a rectangle sets exactly the pixels of the shape that lie on the display; clearing a rectangle clears exactly its pixels; no drawing reads or writes outside the buffer, whatever the coordinates.", "quantifier": "all images, all display widths that are a multiple of the height, all heights that are a power of two from 8, all fonts, texts, coordinates and previous contents", "why_tests_cant": "The conversion permutes words along cycles and transposes bits with masks; a test image shows a few pixels, while a wrong bit index may only show for other sizes or positions", "anchors": ["display/monoframe.h: MonoFrame::ConvertLandscape, TransposeSquareInPlace, Draw, DrawText, DrawRect, ClearRect", "display/ssd1306.h: ConvertToNative, ReadImage"]}
{"id": "C89", "title": "Motion readings are smoothed and extrapolated by the least squares line through the latest samples", "statement": "The value and slope the motion code reads for a moment are those of the straight line that fits the last N samples best; if the samples lie on a line the value is exact; also after any number of samples, when the sums have been updated incrementally and recalculated, and when the microsecond clock wraps.", "quantifier": "all histories of samples, gaps up to seconds, all clock values, all sizes of the window from 1 to 1024", "why_tests_cant": "The sums are updated incrementally and rebuilt every 1024 samples; a mistake would show only after long histories or at the wrap of the clock", "anchors": ["common/extrapolator.h: IncrementalLine, Extrapolator"]}
{"id": "C90", "title": "Orientation arithmetic turns vectors without changing lengths or angles, and the direction of down converges", "statement": "Rotating by a unit quaternion keeps lengths, inner products and orientation; composition of quaternions composes rotations; the rotation from one direction to another does that; mounting the board in any of the orientations is a rotation of the readings; the bytes of the sensor are read as signed 16 bit numbers; the estimate of down stays within the bounds of its inputs and converges to the accelerometer when the saber is still.", "quantifier": "all vectors, unit quaternions, orientations, sensor bytes, histories of readings", "why_tests_cant": "Signs and orders of factors agree for many symmetric test vectors; the convergence is about unlimited time", "anchors": ["common/vec3.h: Vec3", "common/quat.h: Quat", "motion/motion_util.h: MotionUtil::FromData", "common/fuse.h: Fusor"]}
{"id": "C91", "title": "Swing sounds are mixed by the angle turned, without sudden changes, and their volumes add up", "statement": "While the saber is swung, the share of each of the two sounds depends only on the angle turned, not on how often motion is sampled; a small turn changes each share a little, also where one transition ends and the next comes; the two volumes are not negative and add up to the volume of the swing, at most the configured one; the hum is ducked by at most the configured percentage; a swing begins at the threshold and lasts to 90 percent of it; when it ends, the sounds fade before new ones are picked.", "quantifier": "all configurations, all histories of motion, all schedules of sampling", "why_tests_cant": "The mix is a function of accumulated rotation, and jumps occur only where the sampling straddles the end of a transition", "anchors": ["sound/smooth_swing_v2.h: SmoothSwingV2::SB_Motion, PickRandomSwing, Data", "sound/looped_swing_wrapper.h: LoopedSwingWrapper::SB_Motion"]}
{"id": "C92", "title": "The amplifier is on while something plays and goes off in silence", "statement": "From the moment a sound is announced the amplifier and the audio output are powered for as long as something plays (and at least 30 ms); after silence of 30 ms they are switched off within 40 ms plus two rounds of the main loop; a cooperative sleep lasts as long as asked.", "quantifier": "all histories of sounds, announcements and main loop rounds, all clock readings", "why_tests_cant": "The loop is a coroutine whose position, the clock and announcements from other code interleave arbitrarily; the clock wraps after 49 days", "anchors": ["sound/amplifier.h: Amplifier::Active, Enable, Loop, Parse", "common/state_machine.h: SLEEP, YIELD"]}
{"id": "C93", "title": "A blaster fires only what is in the magazine, and auto fire lasts as long as the trigger is held", "statement": "No shot comes from an empty magazine and the bullet count is what is left; a click is heard only when empty; once jammed nothing is fired until it is banged; pulling the trigger with power on does exactly one thing according to jam, magazine and mode; auto fire is heard only while the trigger is held and power is on, and uses ammunition; the mode can be changed when not firing; without a clip the magazine stays empty.", "quantifier": "all histories of button events, clashes and power cuts, all random numbers, all configurations", "why_tests_cant": "The outcome depends on the whole history of shots, reloads, jams, held buttons and power", "anchors": ["props/blaster.h: Blaster::Fire, Event2, ClipIn, ClipOut, Reload, CheckJam", "props/prop_base.h: PropBase::Event", "buttons/button_base.h: ButtonBase::Send"]}
{"id": "C94", "title": "The hum sounds while a blade is on, and only then; sound players are not shared", "statement": "After any history of turning on and off, pre-on, lockups, effects, swings, sounds ending and other components using the sound players: every player's reference count equals the number of pointers to it, so a player handed out is held by nobody and silent; the volume of the hum stays between nothing and full; while a blade is on some player is playing that sooner or later plays the hum (or the sound of lockup) and goes on doing so; while every blade is off, the only player that can be heard and would play an endless sound is the hum being faded out, and once the fade time has passed there is none.", "quantifier": "All histories of events of the font and of the players, all fonts, all numbers of players, all times and schedules of motion reports", "why_tests_cant": "The state is the combination of several players, their queued sounds, reference counts, font kind and timing; a stuck or missing hum needs a particular interleaving that no finite set of tests covers", "anchors": ["sound/hybrid_font.h HybridFont", "common/ref.h RefPtr", "sound/sound.h GetFreeWavPlayer", "sound/buffered_wav_player.h", "sound/playwav.h PlayWav::loop", "sound/volume_overlay.h"]}
{"id": "C95", "title": "Low battery and being left alone are noticed, and only then", "statement": "For every schedule of the battery monitor and every sequence of measurements: the battery is reported low exactly when at least the latest 1001 readings were low (smoothed voltage below 3 V, or 2.6 V with a blade lit, something connected and no USB), readings are at least a millisecond apart so that such a report stands for at least a second, and one good reading ends it; the voltage shown lies between the measurements, the percentage between 0 and 100 and grows with the voltage. For every history of the prop: a low battery turns a lit blade off and warns, warnings are more than 15 seconds apart, nothing of it happens while the style shows charging; the idle switch-off comes only after the saber was unused for longer than the configured time, and does come then.", "quantifier": "all schedules of the monitor loop, all measurements, load changes and pin releases; all histories of the prop's loop, preset changes and clock wrap-arounds", "why_tests_cant": "The count, the spacing and the wrap-around of the clocks depend on the whole history; a test sees a few readings.", "anchors": ["common/battery_monitor.h:BatteryMonitor::Loop", "common/battery_monitor.h:BatteryMonitor::IsLow", "common/battery_monitor.h:BatteryMonitor::battery_percent", "props/prop_base.h:PropBase::CheckLowBattery", "props/prop_base.h:PropBase::Loop"]}
{"id": "C96", "title": "The buttons of the standard saber do what its header says", "statement": "For every history of presses, holds, releases, clashes, stabs and twists on the standard saber with POWER (and AUX): the blade is turned on only by the end of a short press of POWER while it is off and off only by the end of a short first press of POWER while it is on (or an empty battery); a double click of POWER turns it on muted; a long POWER click is force (on) or the next track (off); an AUX click is one blast (on) or the next preset (off); AUX held with a POWER click is the previous preset (off) or the colour menu (on); POWER held and a bump is the next preset (off); a button held and a clash or stab is a lockup, a drag (blade pointing down at the press) or a melt, POWER held with an AUX click is lightning, each until a button is released, which then does nothing else; there is a lockup only while the blade is on, and lockups begin and end in turn. With DUAL_POWER_BUTTONS the two buttons change places after turning on with AUX.", "quantifier": "all configurations of a menu, all histories of button, motion and battery events at all times (including timer wrap), all event counts", "why_tests_cant": "gestures interact through modifiers that are used up, counted presses, saved clicks and lockup state; the histories are unbounded", "anchors": ["props/saber.h:Saber::Event2", "buttons/button_base.h:Send", "buttons/button_base.h:Loop", "props/prop_base.h:Event", "props/prop_base.h:Clash2", "props/prop_base.h:Off", "common/events.h:EVENTID"]}
{"id": "C97", "title": "The detonator explodes only when armed", "statement": "For every history of the switch, the button and the main loop: the detonator explodes only if, since it was last switched on, the button had been held for longer than the arming sound, and the button was let go longer ago than the sound that follows and has not been touched since; in that case the next round of the loop does set it off; switched off, it never explodes.", "quantifier": "all histories of switch, button and loop events at all times (including timer wrap) and all sound lengths", "why_tests_cant": "the pending action, the armed flag and the modifiers interact over unbounded histories and all timings", "anchors": ["props/detonator.h:Detonator", "props/detonator.h:PollNextAction", "props/detonator.h:Event2", "props/prop_base.h:Off"]}
{"id": "C98", "title": "Menus and settings follow the turning of the hilt", "statement": "In a stepped menu the number of entries moved is the angle the hilt was turned in units of one entry, plus the clicks; turned back to where it started the menu is back at the entry it was opened at; a step is not undone unless the hilt turns back by more than the dead zone; with the hilt held still the menu comes to rest. A value that wraps around is the value at opening plus the angle turned, the given number of turns being the whole range, so whole rounds bring it back exactly. A value with ends follows a wheel with stops, never leaves 0..32767, signals the ends, and cancelling restores it; opening it without turning keeps it.", "quantifier": "all angles, all sequences of readings and clicks, all entry counts, dead zones, margins and revolutions", "why_tests_cant": "the angle read wraps around and histories of turns are unbounded; a test tries a few turns", "anchors": ["common/angle.h:Angle", "modes/stepped_mode.h:SteppedModeBase", "modes/smooth_mode.h:SmoothBase,SmoothWraparoundMode,SmoothMode"]}
{"id": "C99", "title": "A display script does what it says, on the layers it says", "statement": "A script asked for on an idle display is carried out completely and exactly once, line by line, however reading the file and interpreting it interleave; every line acts only on the layer given by the number of layer lines before it; a file= line leaves that file on the layer and starts it if it was not playing; a file already playing goes on unless restart is given, and restart before or after file= starts it from its beginning; comments and blanks before them are ignored; a layer the screen does not have ends the script; a script asked for while another is carried out follows it.", "quantifier": "all script texts, all interleavings of file reading and interpretation, all read sizes, all earlier states of the display", "why_tests_cant": "reading happens in the background; the interleavings and split points are unbounded", "anchors": ["display/layer_controller.h:SCRReader,BufferedFileReader", "sound/effect.h:EffectFileReader"]}
{"id": "C100", "title": "Stripes cover the blade without gaps and move at their speed", "statement": "A stripe pattern depends on the position only modulo its length, so its internal wrap around is never seen; turning the list of colours turns the pattern; every LED shows one of the colours or a mixture of two neighbours, with no dark gaps between stripes; along the blade the colour changes gradually; the pattern travels at the speed given, whatever the frame times; with hard edges the inside of a stripe has exactly its colour.", "quantifier": "all lists of colours, widths, speeds, LED counts, positions and sequences of frame times", "why_tests_cant": "positions, speeds and frame times range over all 32 bit values, and the wrap around happens after an unbounded time", "anchors": ["styles/stripes.h:StripesBase,HardStripesX,StripesX", "common/sin_table.h"]}
{"id": "C101", "title": "Blast waves, sparks and bumps have the right shape, place and size", "statement": "Without an active blast the blast function is zero; a blast makes a wave whose crest leaves its place at the given speed, symmetric to both sides, brighter nearer to the crest, dark beyond its width and fading to nothing in the given time; the values stay within 0..32768; the fade out function falls from full to zero; wave and spark transitions mix between old and new colour in proportion to the same shape; bumps and humps have their centre at the place given and fall or rise with the distance.", "quantifier": "all effect lists, times, places, LED counts, widths and speeds", "why_tests_cant": "the shapes must hold for every time, place and combination of effects", "anchors": ["functions/blast.h:BlastF,BlastFadeoutF", "transitions/wave.h:TrWaveX,TrSparkX", "functions/bump.h:BumpBase,HumpFlickerFX"]}
{"id": "C102", "title": "Sparkles spread, fade out and never overflow", "statement": "The light of a sparkle spreads to its neighbours without gaining in sum, and dies out completely when no new one starts; with usual intensities no value overflows however many sparkles start; the values are within 0..32768; the number of updates follows the time; a new sparkle starts inside the blade.", "quantifier": "all histories of updates and random numbers, all LED counts and intensities", "why_tests_cant": "sums over unbounded histories of random sparks", "anchors": ["functions/sparkle.h:SparkleF"]}
{"id": "C103", "title": "Blinking, strobing, effect timers and noise keep their promises over time", "statement": "Blinking that is looked at at least once per period keeps a perfectly regular rhythm for ever, dark for the given part of each period; a strobe run often enough follows a perfect one and is put into step after a pause; the time since an effect is exact up to 1000 seconds and at least 1000 seconds from then on, never wrapping around; the ignition spark starts at full strength and falls in proportion to time to zero; noise stays in range, slow noise moves by at most its speed per millisecond and neighbouring LEDs of brown noise differ by at most the grade.", "quantifier": "all call times (with the stated maximal gaps) over unbounded real time, all clock wrap arounds, all random numbers", "why_tests_cant": "drift and clock wrap around show only after unbounded time", "anchors": ["functions/blinking.h:BlinkingFSVF", "functions/strobe.h:StrobeSVF", "functions/time_since_effect.h:TimeSinceEffectSVF", "functions/on_spark.h:OnSparkFSVF", "functions/brown_noise.h:BrownNoiseF,SlowNoise"]}
{"id": "C104", "title": "Beeps are square waves of the right length and order", "statement": "Every request for sound is filled completely while there is something to play, and exactly the samples of the queued beeps are played, whatever the sizes in which they are read; a tone is a square wave with its frequency, sample by sample; a silence is silent; beeps are played in the order queued and a new beep never changes those before it.", "quantifier": "all queues of beeps, frequencies, lengths and sequences of read sizes", "why_tests_cant": "the mixer reads in pieces of any size at any point of a beep", "anchors": ["sound/beeper.h:Beeper"]}
{"id": "C105", "title": "Readers of the analog converter never disturb each other", "statement": "However many parts of the program read analog pins (battery, temperature, potentiometers, blade ID), at most one uses the converter at a time; each gets a value of its own pin, converted after it asked; a reader finishes once the hardware does its work; a blocking read ends even if others were in the middle of theirs.", "quantifier": "all histories of starts, polls and blocking reads by any number of readers, all hardware timings", "why_tests_cant": "interleavings of independent state machines sharing one piece of hardware", "anchors": ["common/analog_read.h:AnalogReader,LSAnalogRead", "functions/readpin.h:AnalogReadPinSVF"]}
{"id": "C106", "title": "Rotating and sweeping sections have their size, speed and colours", "statement": "ColorCycle lights exactly the given part of the ring, at every angle and across the end of the ring, and turns with the given speed over any frame times; Cylon's section stays on the blade and touches both ends; when turned on or off size, speed and colour change in proportion to time from the off values to the on values.", "quantifier": "all LED counts, percentages, speeds, positions and sequences of frame times including clock wrap around", "why_tests_cant": "sums over all LEDs and all frames at every real position", "anchors": ["styles/color_cycle.h:ColorCycle", "styles/cylon.h:Cylon", "common/range.h:Range"]}
{"id": "C107", "title": "The booster is on while it is needed and goes off afterwards", "statement": "Whoever enables the booster has it at once and for at least ten seconds; it is switched off only when nothing needs power and nobody has enabled it for ten seconds, with a second between; when nothing needs power any more it is switched off within a bounded time.", "quantifier": "all histories of enabling, needs, main loop calls and passing of time", "why_tests_cant": "every interleaving with every clock value", "anchors": ["common/booster.h:Booster", "common/state_machine.h:SLEEP"]}
{"id": "C108", "title": "A PWM blade has power while on and none when off and dark", "statement": "From turning on until turning off the LEDs have power whatever the style and effects do; once off and dark they have none until the next event; timing out switches them off; the battery monitor is told whether there is load.", "quantifier": "all histories of activation, styles, effects, turning on and off", "why_tests_cant": "any order of events", "anchors": ["blades/simple_blade.h:Simple_Blade"]}
{"id": "C109", "title": "Fire never burns outside its array, never exceeds its fuel and goes out", "statement": "An update of the fire stays inside its memory and depends on the old heats only; no LED ever is hotter than the hottest fuel; without fuel the fire goes out after a known number of updates; a clash makes the hilt white at once; the colours run from black over both colours to white without leaving the range between neighbours; the fire starts exactly after its delay at each ignition.", "quantifier": "all LED counts, speeds, fuels, random numbers, histories of updates and of turning on and off, clock wrap around", "why_tests_cant": "unbounded histories with random numbers", "anchors": ["styles/fire.h:StyleFireBase,StyleFire"]}
{"id": "C110", "title": "Lockup layers show each lockup once, fade in and out, and settle", "statement": "A lockup layer shows a lockup exactly if its condition held when this lockup began; once its transitions have had their time it shows the full colour during a shown lockup and is transparent otherwise, whatever happened before; beginning and ending makes no jump; a style's general lockup layer shows drag, melt and lightning block exactly if no layer of their own handles them, with the colour and shape of each type.", "quantifier": "all transitions, colours, histories of lockups and conditions, frame times and sets of layers", "why_tests_cant": "histories of overlapping transitions of any length", "anchors": ["styles/lockup.h:LockupTrL,LockupL,FeatureForLockupType", "transitions/base.h:TransitionHelper", "blades/blade_base.h:HandleFeature", "functions/effect_increment.h:LockupPulseSVF"]}
{"id": "C111", "title": "Choosing and mixing among colours keeps to the given ones and follows the selection", "statement": "Mix, EffectSequence and ColorSelect never use a colour outside their list, whatever the function returns; Mix passes evenly from the first colour to the last; ColorSelect shows selection modulo N once its transition had its time, and begins each transition with the old colour; alternatives and variation are kept equal and the one that changed wins.", "quantifier": "all numbers of colours, function values (also negative), histories of selections and effects, transitions and frame times", "why_tests_cant": "unbounded histories of selections with transitions still running", "anchors": ["styles/mix.h:MixHelper", "styles/effect_sequence.h:EffectSequence", "styles/color_select.h:ColorSelect", "functions/alt.h:SyncAltToVarianceSVF", "common/math.h:MOD"]}
{"id": "C112", "title": "Effects shown by transitions each run once, from their beginning, at the right place", "statement": "TrDoEffect fires its effect exactly once per transition and does not change what its inner transition shows; the multi effect layer shows every effect for its full time, also when effects overlap; TransitionLoop runs its transition from its beginning again and again; the location of a random effect is in the range asked for.", "quantifier": "all transitions, histories of effects, overlaps, frame times and random numbers", "why_tests_cant": "overlapping instances created and deleted in any order", "anchors": ["transitions/doeffect.h:TrDoEffectX,TrDoEffectAlwaysX", "styles/transition_effect.h:MultiTransitionEffectL", "styles/transition_loop.h:TransitionLoopL", "common/saber_base.h:EffectLocation"]}
{"id": "C113", "title": "Oscillators, twist, angle, swing and clash functions keep their range and period", "statement": "Sin, Saw and PulsingF stay between LOW and HIGH, repeat with their period without drift over any frame times and clock wrap around, and reach both ends; TwistAngle and BladeAngle are periodic or monotone maps to 0..32768; SwingSpeed and ClashImpact grow with their input from 0 to full; the speed of the marble tends to the one at which force and friction balance and never passes it.", "quantifier": "all periods, bounds, frame times, angles, speeds and strengths", "why_tests_cant": "every real phase and every sequence of frame times", "anchors": ["functions/sin.h:Sin,Saw,PulsingF", "functions/twist_angle.h:TwistAngle", "functions/blade_angle.h:BladeAngleX", "functions/swing_speed.h:SwingSpeedX", "functions/clash_impact.h:ClashImpactFX", "functions/marble.h:MarbleX", "common/sin_table.h:sin_table"]}
{"id": "C114", "title": "Gradients, pixels, clashes and colour sequences are where and when they should be", "statement": "Gradient shows at each LED the colours of its place, the first LED exactly the first colour, with an error less than one part in 32768 per LED; Pixelate shows groups of N LEDs in the colour of their first LED in the same frame; SimpleClash is lit in the frame that reports a clash and until its time is over, and never again by itself; LocalizedClash lights the given part of the blade around the place; ColorSequence shows each colour for its time without drift; LengthFinder always lights one LED of the blade.", "quantifier": "all LED counts, colours, widths, histories of effects and frame times including clock wrap around", "why_tests_cant": "all blade lengths and unbounded frame histories", "anchors": ["styles/gradient.h:Gradient", "styles/pixelate.h:PixelateX", "styles/clash.h:SimpleClashL,LocalizedClashL", "styles/sequence.h:ColorSequence", "styles/length_finder.h:LengthFinder"]}
{"id": "C115", "title": "Spoken numbers say the number", "statement": "A listener who knows how numbers are said hears exactly the whole number that was to be said; two different numbers are never said alike; every sound asked for exists; a voltage is said to two digits after the point, never more than a hundredth too low and never too high; battery voltage and percent below 1000 fit in the queue of sounds.", "quantifier": "all whole numbers, without bound, and all rationals from 0", "why_tests_cant": "infinitely many numbers", "anchors": ["sound/sound_library.h:SayNumber,SayBatteryVolts,SayBatteryPercent"]}
{"id": "C116", "title": "The preset menu moves, copies and deletes the preset that was chosen", "statement": "Moving a preset up or down exchanges it with its neighbour and changes no other; at the ends nothing changes; deleting removes exactly the current preset and never the last one left; inserting puts a copy of the selected preset at the current place; the selected preset stays the same one whatever is moved and inserted; the list never becomes empty.", "quantifier": "all lists of presets and all histories of menu operations", "why_tests_cant": "unbounded histories in which positions shift", "anchors": ["modes/preset_modes.h:MovePresetUpEntry,MovePresetDownEntry,SelectPresetEntry,InsertSelectedPresetEntry,DeletePresetMenuEntry", "props/prop_base.h:MovePreset,delete_preset,set_preset"]}
{"id": "C117", "title": "SA22C button prop: lockups, battle mode, turning off and volume", "statement": "Letting go of a button ends any lockup; in battle mode only a clash or stab without a button begins one; only a hold of the power button (or a twist, if chosen) turns the saber off, and three holds always suffice; a swing blasts exactly when multi blast is on; an automatic lockup ends only when the saber is moved and never within 200 ms; the volume stays within its bounds and is changed only in its menu; the force push never sounds twice within two seconds.", "quantifier": "all configurations, states, events and histories", "why_tests_cant": "the event table has thousands of combinations of button, event, held buttons and mode", "anchors": ["props/saber_sa22c_buttons.h:Event2,Loop,VolumeUp,VolumeDown", "props/prop_base.h:Event,Off,DetectSwing"]}
{"id": "C118", "title": "Dual prop: without a blade exactly the blaster, with renamed buttons", "statement": "With a blade every event goes to the saber; without one the prop behaves exactly as the blaster whose buttons are renamed; no modifier stays set because the blade was put on or taken off while a button was held.", "quantifier": "all saber and blaster props, all masks of held buttons and all histories with blade changes", "why_tests_cant": "held buttons, events and blade changes interleave in any order", "anchors": ["props/dual_prop.h:SaberBlasterProp", "props/prop_base.h:Event"]}
{"id": "C119", "title": "The I2C bus is powered exactly while it is used", "statement": "A device is told the bus is ready only when it is; a bus used at least every two seconds never goes to sleep; a request wakes a sleeping bus; an unused bus sleeps.", "quantifier": "all schedules of requests and loops, any value of the clock", "why_tests_cant": "depends on the order of requests and on the 32 bit clock", "anchors": ["common/i2cbus.h:I2CBus"]}
{"id": "C120", "title": "Potentiometers: smoothed reading, volume and variation in range", "statement": "The reading stays in the range of the values read; with the knob at rest it comes closer by a factor of ten each second, however often it is read; volume and variation are never above their maximum.", "quantifier": "all sequences of readings at all times", "why_tests_cant": "depends on the schedule of readings", "anchors": ["buttons/pots.h:BasePotClass,PotClass,ChangeVolumeAnalogReceiver,ChangeVariationAnalogReceiver"]}
{"id": "C121", "title": "Colour menus: list of colours, saving, resetting and cancelling", "statement": "colors.txt with a colour in each line gives exactly these colours; a colour saved in the menu reads back as the same colour and no other argument changes; cancelling gives back the colour as it was; resetting gives the default.", "quantifier": "all files, all colours, all styles and arguments, all turns of the dial", "why_tests_cant": "unbounded files, 2^48 colours, any style string", "anchors": ["modes/color_menues.h:FileColorMenu,ColorHueMode,ColorBrightnessMode,ResetColorToDefaultEntry", "modes/style_argument_helpers.h:SetColorArg,GetColorArg", "modes/smooth_mode.h:SmoothBase"]}
{"id": "C122", "title": "The SD card is mounted while needed and given back when not", "statement": "The card is never unmounted while something plays, reads or the saber is on, nor within a second after, unless a computer has it; when idle for a second it is unmounted; with a computer connected and the saber idle it is not touched; mounting is tried at most once a second and succeeds with a card that works.", "quantifier": "all histories of loops and requests, any value of the clock", "why_tests_cant": "depends on the order of use, USB and time", "anchors": ["common/sd_card.h:SDCard"]}
{"id": "C123", "title": "The status LED blinks the number it was told", "statement": "An LED told to blink N times flashes exactly N times, lit in the second half of each half second, then is dark for a second and a half, then repeats or ends.", "quantifier": "all N and all schedules of the main loop with gaps up to 244 ms, any value of the clock", "why_tests_cant": "depends on when the loop samples the pattern", "anchors": ["common/status_led.h:StatusLED"]}
{"id": "C124", "title": "Monitoring output is limited; the processor is not slowed while in use", "statement": "A monitor prints at most once in 201 ms however often it is asked; all that ask in one round get the same answer; a monitor switched off prints at most once more; an active one is due each time. The processor is slowed only after 30 seconds without activity noted before the check.", "quantifier": "all histories of asking, toggling and looping; all times of interrupts", "why_tests_cant": "unbounded histories and interrupt times", "anchors": ["common/monitoring.h:Monitoring", "common/clock_control.h:ClockControl"]}
{"id": "C125", "title": "The speaker filter: the difference equations of a stable high pass", "statement": "The filter run in blocks of four gives for each sample what the difference equations of its sections say, whatever the blocks; each section is stable; the highest frequency passes with gain one; a constant level is blocked and anything after a sound stops decays; the power function and, from 1 on, the square root used are right.", "quantifier": "all sounds of any length, all numbers of sections, all cut off frequencies", "why_tests_cant": "unbounded sounds and a continuum of coefficients", "anchors": ["sound/filter.h:BiQuad,ButterworthFilterBase,HighPassFilterBase,po_pow,po_sqrt", "sound/dac.h"]}
{"id": "C126", "title": "High power LEDs get no more current than allowed, colours no more than asked", "statement": "The level chosen for an LED is the greatest which gives no more of red, green or blue than asked; red, green, blue and white together give exactly the colour; the average current is never above the maximum and nothing is dimmed needlessly; a fuller battery never gives a brighter setting; a dimmed blade is never brighter than asked and a larger percentage never darker.", "quantifier": "all colours, LED data, battery voltages and percentages", "why_tests_cant": "a continuum of voltages and LED data and 2^48 colours", "anchors": ["blades/drive_logic.h:DriveLogic", "common/color.h:Color16::select", "blades/dim_blade.h:DimBladeWrapper", "blades/abstract_blade.h:AbstractBlade::SetStyle"]}
{"id": "C127", "title": "Savi blades: commands arrive complete and in order", "statement": "However the timer interrupt falls between the lines of the program, the pin shows the commands in the order given, each complete and readable by the blade, and all are sent; a blade that is on hears its state whenever nothing was sent for 550 ms.", "quantifier": "all interleavings of interrupt and program, all command values and histories", "why_tests_cant": "the interrupt may fall between any two instructions", "anchors": ["blades/saviblade.h:SaviBlade"]}
{"id": "C128", "title": "The menu offers as many values for an argument as the style has", "statement": "The number of settings found for an argument is unknown just when no part of the style knows one, and otherwise the least number which is a multiple of that of each part.", "quantifier": "all styles of any number of parts", "why_tests_cant": "styles are trees of any size built by the user", "anchors": ["styles/get_arg_max.h:gcd,lcm,combine_args,GetArgMaxTL", "styles/style_ptr.h:get_max_arg", "common/typelist.h:SplitTypeList"]}
{"id": "C129", "title": "The colour cycle lights the right fraction; a shortened blade is dark at its end", "statement": "The light of all pixels is the length of the arc from start to end, no pixel more than in full; before the transition nothing is lit and after it everything is; within it the part lit is the fraction of time passed. A shortened blade shows the style on its first pixels and is dark after.", "quantifier": "all lengths, places, fractions of time, frame times and speeds", "why_tests_cant": "a continuum of times and places", "anchors": ["transitions/colorcycle.h:TrColorCycleX", "common/range.h:Range", "common/math.h:fract", "styles/blade_shortener.h:BladeShortenerWrapper"]}
{"id": "C130", "title": "Style menu entries act on the blade and setting they name", "statement": "Applying settings of a selected style changes just the blade being edited; colours to all blades changes every other blade and not the selected one; a setting with n choices opens a menu with n entries; times in the menu are at most half a minute and increase with the dial.", "quantifier": "all presets, blades, styles, arguments and menu positions", "why_tests_cant": "any number of blades and any order of menu entries", "anchors": ["modes/style_option_modes.h", "modes/preset_modes.h", "common/current_preset.h:CurrentPreset"]}
{"id": "C131", "title": "Touch buttons take turns measuring and each measurement ends", "statement": "At most one touch button uses the touch hardware at a time, whatever the order in which the buttons run; looped in rounds, each gets its turn in order; a button counts as touched just when the last value taken for it was above its threshold; and a turn ends in the call in which the sensor is done and the waiting times have passed.", "quantifier": "all numbers of buttons, all schedules, all readings and clock values", "why_tests_cant": "any interleaving of any number of buttons", "anchors": ["buttons/touchbutton.h:TouchButton", "common/state_machine.h"]}
{"id": "C132", "title": "A command's output can be read line by line", "statement": "Asking for the n-th line of output gives that line as far as it fits, and the number of line feeds; asking for the line after another, in order or backwards, gives of all complete lines the one that comes first after it; going on so visits each complete line once, in order.", "quantifier": "all outputs of any number of lines, all buffer sizes, both directions", "why_tests_cant": "any length of output", "anchors": ["common/stdout.h:CatchCommandOutput,GetNextLineCommandOutput", "common/command_parser.h:CommandParser"]}
{"id": "C133", "title": "The loop counter shows the real rate", "statement": "For loops taking between a and b milliseconds each, once five seconds have passed the rate shown is at most a fifth of a loop per second below that of the slowest and one part in 5000 above that of the fastest, however long the counting goes on; and its sums stay small.", "quantifier": "all histories of updates with gaps of at most ten seconds", "why_tests_cant": "any number of updates at any times", "anchors": ["common/loop_counter.h:LoopCounter"]}
{"id": "C134", "title": "The effect board plays the sound of the trigger pressed", "statement": "At most one sound goes on at any time: every other one started was told to fade. Pressing a trigger with plain, random or successive sounds plays one of its own if a player is free; one with a sound for holding plays it until let go.", "quantifier": "all histories of presses and releases of any number of triggers", "why_tests_cant": "any order of any number of presses", "anchors": ["props/audiofx.h:TriggerEffectGroup,AudioFx"]}
{"id": "C135", "title": "The emptiest sound buffer is filled first and none is forgotten", "statement": "Each round fills just the streams than which no other has more room; when they need at most 50 fills together all are full afterwards; the interrupt is never queued twice nor while it runs; as long as a stream has room, the interrupt is queued or still looking; a stream destroyed leaves the list and the others stay.", "quantifier": "all numbers of streams, all amounts of room, all interleavings of request and work", "why_tests_cant": "the request comes from an interrupt which may fall anywhere", "anchors": ["sound/audio_stream_work.h:AudioStreamWork", "sound/buffered_audio_stream.h:BufferedAudioStream"]}
{"id": "C136", "title": "Strings of a preset are freed just once and never leak", "statement": "However preset strings are made, assigned, moved and dropped, with or without memory to spare, no string is freed twice, no constant is freed, no two holders share a string, and when all holders are gone all memory is free.", "quantifier": "all histories of any length over any number of holders", "why_tests_cant": "any order of any number of operations, with memory running out at any of them", "anchors": ["common/malloc_helper.h:LSPtr,LSFree,IsHeap,mkstr", "common/current_preset.h:CurrentPreset"]}
{"id": "C137", "title": "Pictures drawn in the air: the right column, decoded as drawn", "statement": "A column of the picture is decoded to just what its pieces say, whatever follows it, without touching memory outside the buffer; what the picture tool encodes the blade decodes; within the angles given the column shown is in proportion to the angle and always one of the table; each pixel shows a row of the column, in order, and with enough pixels each row is shown.", "quantifier": "all columns, encodings, angles, speeds, times and blade lengths", "why_tests_cant": "pictures of any size and a continuum of angles", "anchors": ["styles/pov.h:rle_decode,POVStyleBase,StylePOV,ContinuousPOV", "pov_tools/rle.h", "common/math.h:fract"]}
{"id": "C138", "title": "Pictures from a file: whole frames, in step with the sound", "statement": "While a frame is being drawn it does not change, however often the loading interrupt runs; what is shown is a whole frame of a picture file, that of its number; as long as the sound goes on the picture is never ahead of it and never goes back; each pixel is read from within the frame.", "quantifier": "all interleavings of drawing and loading, all positions of the sound, all blade lengths", "why_tests_cant": "the interrupt may fall anywhere in any frame", "anchors": ["styles/file.h:FromFileStyleBase,FromFileStyle,FromHumFileStyle"]}
{"id": "C139", "title": "After showing a colour each blade has its style back", "statement": "While a menu shows a colour each blade named has a style of its own and the others keep theirs; however deep such uses are nested, afterwards each blade has the style it had, and exactly the styles put on since were deleted.", "quantifier": "all nestings of any depth over any number of blades and helper objects", "why_tests_cant": "any nesting depth and number of blades", "anchors": ["styles/show_color.h:ShowColorAllBladesTemplate,ShowColorSingleBladeTemplate"]}
{"id": "C140", "title": "The synthesized hum neither overflows nor leaves its tables", "statement": "Whatever the pitches, the position in a wave is the sum of all steps but for whole turns; no sum or product of a sample overflows at volumes up to full, and the sample is the limited sum of the voices.", "quantifier": "all pitches and numbers of samples, all table contents, sines and volumes", "why_tests_cant": "any number of samples; the fault comes once in 25 minutes", "anchors": ["sound/waveform_sampler.h:WaveFormSampler", "sound/lightsaber_synth.h:LightSaberSynth"]}
{"id": "C141", "title": "A blade as a display shows each pixel in place and only whole frames", "statement": "Row by row each pixel of the blade shows its own pixel of the picture; colours keep their order and full range; with two buffers more than styles no buffer is drawn into while it is shown or to be shown.", "quantifier": "all sizes of display, pixels, colours, numbers of styles and buffers, and all orders of frames and drawing", "why_tests_cant": "any order of frames and any number of styles", "anchors": ["styles/display.h:InMemoryDisplay,DisplayStyle"]}
{"id": "C142", "title": "The question and answer board plays the answers of its question", "statement": "A sound is never cut off nor another started with it; with silence a trigger plays its sound and opens its question; then a trigger with an answer plays that, closing the question unless it is trigger one; trigger eight closes it always; others do what they do otherwise.", "quantifier": "all histories of presses and ends of sounds, all sets of sounds", "why_tests_cant": "any order of any number of presses, at any time during a sound", "anchors": ["props/micom.h:AnswerEffectGroup,TriggerEffectGroup,Play"]}
{"id": "C143", "title": "The Caiwyn buttons: volume within limits, tracks in turn, no surprises in the menu", "statement": "However the hilt is turned the volume stays between a tenth of the loudest and the loudest; while the volume menu is open the blade is not turned off by a button, no lockup begins and there is no blast; lockups begin and end in turn, and end when a button is released or the blade is turned off; with all tracks repeated they are played in the order of their names, round and round, and only a track chosen by hand becomes the preset's.", "quantifier": "all histories of buttons, clashes, turns, ends of tracks and polls; all volumes and sets of tracks; all builds", "why_tests_cant": "any order of any number of events; any number of tracks", "anchors": ["props/saber_caiwyn_buttons.h:CaiwynButtons", "props/prop_base.h:On,Off"]}
{"id": "C144", "title": "A button read by interrupt loses no press", "statement": "However the interrupt falls within the loop, after every press the prop receives a click once the loop has come by; it receives none without a press; a press while the click of the one before is being handled gets its own.", "quantifier": "all interleavings of interrupts and steps of the loop", "why_tests_cant": "the interrupt may fall between any two instructions", "anchors": ["buttons/fast_button.h:FastButton"]}
{"id": "C145", "title": "A FastLED blade has power when it needs it, and is refreshed at most once in a millisecond", "statement": "A blade that is in and on has power, one taken out has none, pixels are never sent without power; once off and dark the first refresh takes the power away and it stays away until an effect or turning on; while on or lit it is kept; as the clock goes on there is at most one refresh in a millisecond.", "quantifier": "all histories of plugging, turning on and off, effects and loops at any times", "why_tests_cant": "any order of any number of events", "anchors": ["blades/fastled_blade.h:FASTLED_Blade"]}
{"id": "C146", "title": "Numbers and strings made at compile time are what they say", "statement": "Arrays are joined in order, any number of them; every number gives its decimal digits without zeros in front, and different numbers different arrays; a string of up to twenty characters is kept, and one of more does not compile.", "quantifier": "all numbers, strings and lists of arrays", "why_tests_cant": "infinitely many types", "anchors": ["common/bytearray.h:ConcatByteArrays,NumberToByteArray,StripZeroes,STRTYPE"]}
{"id": "C147", "title": "Random blinking keeps its pace and each pixel its own bit; levels are in proportion", "statement": "Each pixel is off or fully on, and every pattern is possible; between two patterns at least the time of a cycle passes, so that over any time there are no more patterns than cycles; the charge of a blaster and the volume are shown from 0 to 32768 in proportion.", "quantifier": "all blade lengths, frequencies, times and numbers drawn; all counts and volumes", "why_tests_cant": "any number of calls at any times", "anchors": ["functions/random_blink.h:RandomBlinkF", "functions/bullet_count.h:BlasterChargeSVF", "functions/volume_level.h:VolumeLevelSVF"]}
{"id": "C148", "title": "A shared timer runs exactly while one of its pins is in use", "statement": "Pins share timers, and all timers run in step with one of them: after any history of lights and servos being turned on and off a timer runs exactly while one of its pins is in use, the common timer exactly while any pin is; another pin never changes what a running timer does; the part of the time a light is on is in proportion to its value. On the ESP32 no two pins share a channel.", "quantifier": "all boards, all histories of taking and giving up pins, all values", "why_tests_cant": "any order of any number of uses of any pins", "anchors": ["blades/pwm_pin.h:SetupTimer,TeardownTimer,LSanalogWrite,LSanalogWriteSetup,LSanalogWriteTeardown"]}
{"id": "C149", "title": "Time is counted for the innermost part of the program, once", "statement": "However parts of the program are nested, interrupts included, and however often the cycle counter wraps, each part is charged exactly the cycles that passed in it and in no part within it, and the sum is all that passed within any part.", "quantifier": "all nestings, times and starting values of the counter", "why_tests_cant": "unbounded nesting and any number of wraps", "anchors": ["common/scoped_cycle_counter.h:ScopedCycleCounter"]}
{"id": "C150", "title": "The test of the SD card reads every file below a directory", "statement": "Every file below the directory, at any depth, is read under its whole name, once and in order, the directory itself and the one above left out, and nothing is written outside the buffer; each time measured is in the column it belongs to, and the columns make up the number of times.", "quantifier": "all directory trees and names; all sequences of times", "why_tests_cant": "unbounded depth, with one buffer shared by all levels", "anchors": ["common/sd_test.h:SDTestHelper,SDTestHistogram"]}
{"id": "C151", "title": "Swing sounds in front of a font lose and repeat no event", "statement": "However swing sounds are put in front of fonts and taken away again, every event reaches every listener exactly once and nobody is called who is not there; once taken away the font is in the list of listeners again.", "quantifier": "all histories of putting any number of wrappers in front of listeners", "why_tests_cant": "any order of any number of changes", "anchors": ["common/saber_base_passthrough.h:SaberBasePassThrough", "common/saber_base.h:Link,Unlink"]}
{"id": "C152", "title": "A recorded clash is whole, in order, and never written over another", "statement": "Recording goes on for exactly 192 samples of motion after the clash whatever else happens, then nothing changes what is written; that is the last 256 samples in order; whatever files there are, in whatever gaps, the search for a file ends with a number not in use, the next one when there are no gaps.", "quantifier": "all histories of motion and clashes; all sets of files", "why_tests_cant": "any number of samples and files", "anchors": ["scripts/clash_recorder.h:ClashRecorder", "scripts/motion_startup_recorder.h:Save"]}
{"id": "C153", "title": "The charging style shows the battery by colour and height", "statement": "A full battery is green, and as it empties blue, orange and red in turn; the level goes up with the voltage from the hilt at 2.7 volts to the tip at 4.2; only LEDs near it are lit, nearer ones no darker, none brighter than the colour. The colour cycle always has exactly one colour on, each in turn, a new one only with a new millisecond.", "quantifier": "all voltages, numbers of LEDs and phases of the pulsing; all starting values of the cycle", "why_tests_cant": "every voltage and LED", "anchors": ["styles/charging.h:StyleCharging", "styles/rgb_cycle.h:RGBCycle", "common/color.h:Color8::mix"]}
{"id": "C154", "title": "Speech is read bit by bit, word by word, in order", "statement": "Reading speech data n bits at a time gives the same numbers as taking the bits of all the bytes in order, lowest bit first, and never looks at a byte beyond those the bits lie in; the words asked for are spoken in the order asked, none twice, and only those that did not fit in the queue are left out; a frame lasts exactly as many samples as the rate says.", "quantifier": "all data, bit positions and field widths up to eight; all histories of words asked for and words ended; all speech rates", "why_tests_cant": "any length of data and any number of words", "anchors": ["sound/talkie.h:Talkie::Say", "sound/talkie.h:Talkie::getBits", "sound/talkie.h:Talkie::rev", "sound/talkie.h:Talkie::ReadFrame", "sound/talkie.h:Talkie::Get8kHz"]}
{"id": "C155", "title": "Infrared messages go out whole and in order", "statement": "Whatever is sent, whenever, nothing is written beyond the transmitter's buffer and the hardware is never told to read more than is in it; once a message has been sent and the main loop has come round, exactly the light asked for, of all messages in order, has gone out, period by period.", "quantifier": "all histories of signals, sends, turns of the main loop and reads by the hardware", "why_tests_cant": "any number of messages at any moment", "anchors": ["ir/stm32_ir.h:IrTransmitterSTM32::signal", "ir/stm32_ir.h:IrTransmitterSTM32::send", "ir/stm32_ir.h:IrTransmitterSTM32::WaitForSpace", "ir/stm32_ir.h:IrTransmitterSTM32::StartBurst", "ir/stm32_ir.h:IrTransmitterSTM32::compact"]}
{"id": "C156", "title": "A pin used by two parts of the program is found when compiling", "statement": "A program compiles exactly when no two of its uses of pins get in each other's way: by different users, of the same pin, or both driving pins that are bonded together. The order of the declarations does not matter, and a pin that is missing (-1) is in nobody's way.", "quantifier": "all lists of declared uses and all sets of bonded pins", "why_tests_cant": "any number of declarations", "anchors": ["common/resources.h:UsePin", "common/resources.h:UsePin2", "common/resources.h:UseBondedPin", "common/resources.h:UseResource", "common/resources.h:BondedPins"]}
