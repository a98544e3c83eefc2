data/token_pair-1-1-1.json
    2 orders; executed 2, prices [(token0, 1000000000000000000), (token1, 632392232675860028)], utility 178189397009984194269987986105158982, disregarded 11086402302005476594159965730338585, of touched orders 11086402302005476594159965730338585, fees 399799999999999
    utility minus disregarded utility: recorded 167096138029808488003949132145642174, model 167102994707978717675828020374820397 (not less)
data/token_pair-1-1-2.json
    2 orders; executed 2, prices [(token0, 1000000000000000000), (token1, 1498500000000000000)], utility 174325300000000000000000000000000000, disregarded 0, of touched orders 0, fees 599700000000000
    utility minus disregarded utility: recorded 174313471386152137785284625366236972, model 174325300000000000000000000000000000 (not less)
data/token_pair-1-1-3.json
    2 orders; executed 2, prices [(token0, 1000000000000000000), (token1, 14981253750000000000)], utility 4970017809687500000000000000000000000, disregarded 937500000000000000000000000000, of touched orders 937500000000000000000000000000, fees 29977503750000000
    utility minus disregarded utility: recorded 4970007716953846921385667745490246076, model 4970016872187500000000000000000000000 (not less)
data/token_pair-1-1-4.json
    2 orders; executed 2, prices [(token0, 1000000000000000000), (token1, 500000500000500001)], utility 14584999800000798441537781619973, disregarded 258334437787745, of touched orders 258334437787745, fees 400229784999999
    utility minus disregarded utility: recorded -14563609178680872860034463499844, model 14584999800000798183203343832228 (not less)
data/token_pair-1-1-5.json
    2 orders; executed 0, prices [], utility 0, disregarded 0, of touched orders 0, fees 0
data/token_pair-1-1-6.json skipped (fractional amounts)
data/token_pair-1-2-1.json
    3 orders; executed 2, prices [(token0, 1000000000000000000), (token1, 14981253750000000000)], utility 4970017809687500000000000000000000000, disregarded 937500000000000000000000000000, of touched orders 937500000000000000000000000000, fees 29977503750000000
    utility minus disregarded utility: recorded 4970007204146606980765645504513530796, model 4970016872187500000000000000000000000 (not less)
data/token_pair-2-1-1.json
    3 orders; executed 2, prices [(token0, 1000000000000000000), (token1, 436404578628837011)], utility 203149060990612021495939260552110325, disregarded 14605991568197380176348157910371071, of touched orders 14605991568197380176348157910371071, fees 399799999999999
    utility minus disregarded utility: recorded 167096138029808488003949132145642174, model 188543069422414641319591102641739254 (not less)
data/token_pair-2-2-1.json
    4 orders; executed 4, prices [(token0, 1000000000000000000), (token1, 1998000000000000000)], utility 3393202800000000000000000000000000000, disregarded 0, of touched orders 0, fees 5597200000000000
    utility minus disregarded utility: recorded 3393140384863156520915507251314986264, model 3393202800000000000000000000000000000 (not less)
data/token_pair-2-2-2.json
    4 orders; executed 4, prices [(token0, 1000000000000000000), (token1, 1110000000000000000)], utility 576500500000000000000000000000000000, disregarded 0, of touched orders 0, fees 999500000000000
    utility minus disregarded utility: recorded 576345153197907259696003026105463876, model 576500500000000000000000000000000000 (not less)
data/token_pair-2-2-3.json
    4 orders; executed 3, prices [(token0, 1000000000000000000), (token1, 111000000000000000)], utility 71261400000000000666000000000000000, disregarded 0, of touched orders 0, fees 1332666666666666
    utility minus disregarded utility: recorded 3393140384863156520915507251314986264, model 71261400000000000666000000000000000 (LESS)
data/token_pair-3-2-1.json
    5 orders; executed 4, prices [(token0, 1000000000000000000), (token1, 908181818181818181)], utility 197473954545456044298181818181819, disregarded 679374829374829374, of touched orders 679374829374829374, fees 2453318181816
    utility minus disregarded utility: recorded 178253256201950730601811209859512, model 197473954545455364923352443352445 (not less)
data/token_pair-3-7.json
    10 orders; executed 5, prices [(token0, 1000000000000000000), (token1, 61784464463228776)], utility 3867471054235323346128098116517906498, disregarded 237240248268998742244, of touched orders 237240248268998742244, fees 98888530999999997
    utility minus disregarded utility: recorded 3860938306101892663719218049648699390, model 3867471054235323108887849847519164254 (not less)
data/token_pair-4-6.json
    10 orders; executed 5, prices [(token0, 1000000000000000000), (token1, 64106733505885582)], utility 373490214640808030876767955876721287, disregarded 165455791922503708174, of touched orders 165455791922503708174, fees 80079939999999998
data/token_pair-6-7.json
    13 orders; executed 6, prices [(token0, 1000000000000000000), (token1, 64199740735718974)], utility 732079863601392605392055260813281495, disregarded 45362995867863382094771481216703, of touched orders 45362995867863382094771481216703, fees 184379763999999998
tests/e2e/token-pair/does-not-crash-match-pair/fee-connection.json
    3 orders; executed 3, prices [(token2, 1000000000000000000), (token0, 999000000000000000), (token1, 631759840443184168)], utility 178002298143123670627809179559975168, disregarded 11084234287942249251679854965380190, of touched orders 11084234287942249251679854965380190, fees 399779989989989
tests/e2e/token-pair/does-not-crash-match-pair/min-traded-amount-1-1-1.json
    2 orders; executed 0, prices [], utility 0, disregarded 0, of touched orders 0, fees 0
tests/e2e/token-pair/does-not-crash-match-pair/min-traded-amount-2-1-2.json
    3 orders; executed 2, prices [(token0, 1000000000000000000), (token1, 1498500000000000000)], utility 8734995250999000999001, disregarded 6242223488989988989989, of touched orders 1252248498999998999999, fees 29
tests/e2e/token-pair/does-not-crash-match-pair/no-match.json
    2 orders; executed 0, prices [], utility 0, disregarded 0, of touched orders 0, fees 0
tests/e2e/token-pair/does-not-crash-match-pair/validation-bug.json
    763 orders; executed 30, prices [(T0000, 1000000000000000000), (token0, 249749999999999999987), (token1, 972266590163259676)], utility 93739212562608199212163554265171, disregarded 1228513973610573021652213120043408021, of touched orders 195559879906061308454902799782695, fees 200800619499
tests/e2e/token-pair/has-non-trival-solution/driver-e2e-instance.json
    2 orders; executed 2, prices [(token0, 1000000000000000000), (token1, 1999997995993991990)], utility 2001999995989983964978995013033056, disregarded 2008020040070091098089062015, of touched orders 2008020040070091098089062015, fees 3997995993991989986
tests/e2e/token-pair/has-nonnegative-touched-du/instance.json
    243 orders; executed 3, prices [(T0000, 1000000000000000000), (token0, 1821829123734840886), (token1, 1793168905124240154720051678564)], utility 1805664061880767687790751586474322, disregarded 143038035592191897762374059126829, of touched orders 181433714632026580659277410662, fees 3604226670188293
tests/e2e/best-token-pair/does-not-crash-match-best-pair/almost-empty.json
    1 orders; executed 0, prices [], utility 0, disregarded 0, of touched orders 0, fees 0
tests/e2e/best-token-pair/does-not-crash-match-best-pair/instance_1.json
    813 orders; executed 10, prices [(T0000, 1000000000000000000), (T0003, 3929413200440899583), (T0007, 3935117748584813252)], utility 61156126772894944374997761696083, disregarded 1031241129935348315100925118631, of touched orders 1031241129935348314459921106437, fees 9502797905474
tests/e2e/best-token-pair/does-not-crash-match-best-pair/instance_2:slow.json
    11476 orders; executed 30, prices [(T0000, 1000000000000000000), (T0007, 999000000000000998), (T0079, 909090909090909999)], utility 2560530465807198037342590226058227491636, disregarded 7521998722483181579168811897632303272153, of touched orders 124951520173837190561082257655069, fees 14892825130718901826
tests/e2e/best-token-pair/does-not-take-more-than-1-min/instance_5316943:slow.json
    10491 orders; executed 23, prices [(T0000, 1000000000000000000), (T0073, 999000000000000000), (T0001, 244999000000000000000)], utility 646537462801181400832792536344590292, disregarded 17854285458544282410874529939652, of touched orders 16956122839024930496960616025736, fees 1511486616130938324
tests/e2e/best-token-pair/has-non-trival-solution/instance.json
    803 orders; executed 3, prices [(T0000, 1000000000000000000), (T0004, 78690872429826047135914337)], utility 3679123842689694686678892544924827, disregarded 42155142223939776640669317658740261, of touched orders 2975516389908779938810528112814940, fees 3682793665007
tests/e2e/best-token-pair/has-non-trival-solution/instance_5342282_2020-10-14T14_15_30.328294632+00_00.json
    497 orders; executed 30, prices [(T0000, 1000000000000000000), (T0004, 1000251096294874887), (T0005, 3904884159709721782)], utility 4710183122244189274788641887467305721, disregarded 165565527601956614752634561538017615769, of touched orders 1343899134459206244036187745486935640, fees 5403519031063359
