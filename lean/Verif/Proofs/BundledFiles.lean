import Verif.Spec.Bristol

/-!
# Contents of the bundled circuit files

Generated by `tools/mkfiles.py`. That the texts in `Model/Bundled.lean` have these contents is proved in `Props/Bundled.lean`.
-/

namespace CC.Bundled
open CC.Spec.Bristol

def adder64File : File := { numGate := 376, numWire := 504, ins := [64, 64], outs := [64], gates := [
  ⟨.xor, [63, 127], 376⟩, ⟨.xor, [62, 126], 375⟩, ⟨.xor, [61, 125], 374⟩, ⟨.xor, [60, 124], 373⟩, ⟨.xor, [59, 123], 372⟩,
  ⟨.xor, [58, 122], 371⟩, ⟨.xor, [57, 121], 370⟩, ⟨.xor, [56, 120], 369⟩, ⟨.xor, [55, 119], 368⟩, ⟨.xor, [54, 118], 367⟩,
  ⟨.xor, [53, 117], 366⟩, ⟨.xor, [52, 116], 365⟩, ⟨.xor, [51, 115], 364⟩, ⟨.xor, [50, 114], 363⟩, ⟨.xor, [49, 113], 362⟩,
  ⟨.xor, [48, 112], 361⟩, ⟨.xor, [47, 111], 360⟩, ⟨.xor, [46, 110], 359⟩, ⟨.xor, [45, 109], 358⟩, ⟨.xor, [44, 108], 357⟩,
  ⟨.xor, [43, 107], 356⟩, ⟨.xor, [42, 106], 355⟩, ⟨.xor, [41, 105], 354⟩, ⟨.xor, [40, 104], 353⟩, ⟨.xor, [39, 103], 352⟩,
  ⟨.xor, [38, 102], 351⟩, ⟨.xor, [37, 101], 350⟩, ⟨.xor, [36, 100], 349⟩, ⟨.xor, [35, 99], 348⟩, ⟨.xor, [34, 98], 347⟩,
  ⟨.xor, [33, 97], 346⟩, ⟨.xor, [32, 96], 345⟩, ⟨.xor, [31, 95], 344⟩, ⟨.xor, [30, 94], 343⟩, ⟨.xor, [29, 93], 342⟩,
  ⟨.xor, [28, 92], 341⟩, ⟨.xor, [27, 91], 340⟩, ⟨.xor, [26, 90], 339⟩, ⟨.xor, [25, 89], 338⟩, ⟨.xor, [24, 88], 337⟩,
  ⟨.xor, [23, 87], 336⟩, ⟨.xor, [22, 86], 335⟩, ⟨.xor, [21, 85], 334⟩, ⟨.xor, [20, 84], 333⟩, ⟨.xor, [19, 83], 332⟩,
  ⟨.xor, [18, 82], 331⟩, ⟨.xor, [17, 81], 330⟩, ⟨.xor, [16, 80], 329⟩, ⟨.xor, [15, 79], 328⟩, ⟨.xor, [14, 78], 327⟩,
  ⟨.xor, [13, 77], 326⟩, ⟨.xor, [12, 76], 325⟩, ⟨.xor, [11, 75], 324⟩, ⟨.xor, [10, 74], 323⟩, ⟨.xor, [9, 73], 322⟩,
  ⟨.xor, [8, 72], 321⟩, ⟨.xor, [7, 71], 320⟩, ⟨.xor, [6, 70], 319⟩, ⟨.xor, [5, 69], 318⟩, ⟨.xor, [4, 68], 317⟩,
  ⟨.xor, [3, 67], 316⟩, ⟨.xor, [2, 66], 315⟩, ⟨.xor, [1, 65], 314⟩, ⟨.xor, [0, 64], 440⟩, ⟨.and, [0, 64], 377⟩,
  ⟨.xor, [65, 377], 129⟩, ⟨.xor, [1, 377], 128⟩, ⟨.and, [128, 129], 130⟩, ⟨.xor, [130, 377], 378⟩, ⟨.xor, [66, 378], 132⟩,
  ⟨.xor, [2, 378], 131⟩, ⟨.and, [131, 132], 133⟩, ⟨.xor, [133, 378], 379⟩, ⟨.xor, [67, 379], 135⟩, ⟨.xor, [3, 379], 134⟩,
  ⟨.and, [134, 135], 136⟩, ⟨.xor, [136, 379], 380⟩, ⟨.xor, [68, 380], 138⟩, ⟨.xor, [4, 380], 137⟩, ⟨.and, [137, 138], 139⟩,
  ⟨.xor, [139, 380], 381⟩, ⟨.xor, [69, 381], 141⟩, ⟨.xor, [5, 381], 140⟩, ⟨.and, [140, 141], 142⟩, ⟨.xor, [142, 381], 382⟩,
  ⟨.xor, [70, 382], 144⟩, ⟨.xor, [6, 382], 143⟩, ⟨.and, [143, 144], 145⟩, ⟨.xor, [145, 382], 383⟩, ⟨.xor, [71, 383], 147⟩,
  ⟨.xor, [7, 383], 146⟩, ⟨.and, [146, 147], 148⟩, ⟨.xor, [148, 383], 384⟩, ⟨.xor, [72, 384], 150⟩, ⟨.xor, [8, 384], 149⟩,
  ⟨.and, [149, 150], 151⟩, ⟨.xor, [151, 384], 385⟩, ⟨.xor, [73, 385], 153⟩, ⟨.xor, [9, 385], 152⟩, ⟨.and, [152, 153], 154⟩,
  ⟨.xor, [154, 385], 386⟩, ⟨.xor, [74, 386], 156⟩, ⟨.xor, [10, 386], 155⟩, ⟨.and, [155, 156], 157⟩, ⟨.xor, [157, 386], 387⟩,
  ⟨.xor, [75, 387], 159⟩, ⟨.xor, [11, 387], 158⟩, ⟨.and, [158, 159], 160⟩, ⟨.xor, [160, 387], 388⟩, ⟨.xor, [76, 388], 162⟩,
  ⟨.xor, [12, 388], 161⟩, ⟨.and, [161, 162], 163⟩, ⟨.xor, [163, 388], 389⟩, ⟨.xor, [77, 389], 165⟩, ⟨.xor, [13, 389], 164⟩,
  ⟨.and, [164, 165], 166⟩, ⟨.xor, [166, 389], 390⟩, ⟨.xor, [78, 390], 168⟩, ⟨.xor, [14, 390], 167⟩, ⟨.and, [167, 168], 169⟩,
  ⟨.xor, [169, 390], 391⟩, ⟨.xor, [79, 391], 171⟩, ⟨.xor, [15, 391], 170⟩, ⟨.and, [170, 171], 172⟩, ⟨.xor, [172, 391], 392⟩,
  ⟨.xor, [80, 392], 174⟩, ⟨.xor, [16, 392], 173⟩, ⟨.and, [173, 174], 175⟩, ⟨.xor, [175, 392], 393⟩, ⟨.xor, [81, 393], 177⟩,
  ⟨.xor, [17, 393], 176⟩, ⟨.and, [176, 177], 178⟩, ⟨.xor, [178, 393], 394⟩, ⟨.xor, [82, 394], 180⟩, ⟨.xor, [18, 394], 179⟩,
  ⟨.and, [179, 180], 181⟩, ⟨.xor, [181, 394], 395⟩, ⟨.xor, [83, 395], 183⟩, ⟨.xor, [19, 395], 182⟩, ⟨.and, [182, 183], 184⟩,
  ⟨.xor, [184, 395], 396⟩, ⟨.xor, [84, 396], 186⟩, ⟨.xor, [20, 396], 185⟩, ⟨.and, [185, 186], 187⟩, ⟨.xor, [187, 396], 397⟩,
  ⟨.xor, [85, 397], 189⟩, ⟨.xor, [21, 397], 188⟩, ⟨.and, [188, 189], 190⟩, ⟨.xor, [190, 397], 398⟩, ⟨.xor, [86, 398], 192⟩,
  ⟨.xor, [22, 398], 191⟩, ⟨.and, [191, 192], 193⟩, ⟨.xor, [193, 398], 399⟩, ⟨.xor, [87, 399], 195⟩, ⟨.xor, [23, 399], 194⟩,
  ⟨.and, [194, 195], 196⟩, ⟨.xor, [196, 399], 400⟩, ⟨.xor, [88, 400], 198⟩, ⟨.xor, [24, 400], 197⟩, ⟨.and, [197, 198], 199⟩,
  ⟨.xor, [199, 400], 401⟩, ⟨.xor, [89, 401], 201⟩, ⟨.xor, [25, 401], 200⟩, ⟨.and, [200, 201], 202⟩, ⟨.xor, [202, 401], 402⟩,
  ⟨.xor, [90, 402], 204⟩, ⟨.xor, [26, 402], 203⟩, ⟨.and, [203, 204], 205⟩, ⟨.xor, [205, 402], 403⟩, ⟨.xor, [91, 403], 207⟩,
  ⟨.xor, [27, 403], 206⟩, ⟨.and, [206, 207], 208⟩, ⟨.xor, [208, 403], 404⟩, ⟨.xor, [341, 404], 468⟩, ⟨.xor, [92, 404], 210⟩,
  ⟨.xor, [28, 404], 209⟩, ⟨.and, [209, 210], 211⟩, ⟨.xor, [211, 404], 405⟩, ⟨.xor, [342, 405], 469⟩, ⟨.xor, [340, 403], 467⟩,
  ⟨.xor, [93, 405], 213⟩, ⟨.xor, [29, 405], 212⟩, ⟨.and, [212, 213], 214⟩, ⟨.xor, [214, 405], 406⟩, ⟨.xor, [343, 406], 470⟩,
  ⟨.xor, [339, 402], 466⟩, ⟨.xor, [94, 406], 216⟩, ⟨.xor, [30, 406], 215⟩, ⟨.and, [215, 216], 217⟩, ⟨.xor, [217, 406], 407⟩,
  ⟨.xor, [338, 401], 465⟩, ⟨.xor, [31, 407], 218⟩, ⟨.xor, [344, 407], 471⟩, ⟨.xor, [337, 400], 464⟩, ⟨.xor, [95, 407], 219⟩,
  ⟨.and, [218, 219], 220⟩, ⟨.xor, [220, 407], 408⟩, ⟨.xor, [345, 408], 472⟩, ⟨.xor, [336, 399], 463⟩, ⟨.xor, [96, 408], 222⟩,
  ⟨.xor, [32, 408], 221⟩, ⟨.and, [221, 222], 223⟩, ⟨.xor, [223, 408], 409⟩, ⟨.xor, [346, 409], 473⟩, ⟨.xor, [335, 398], 462⟩,
  ⟨.xor, [97, 409], 225⟩, ⟨.xor, [33, 409], 224⟩, ⟨.and, [224, 225], 226⟩, ⟨.xor, [226, 409], 410⟩, ⟨.xor, [347, 410], 474⟩,
  ⟨.xor, [334, 397], 461⟩, ⟨.xor, [98, 410], 228⟩, ⟨.xor, [34, 410], 227⟩, ⟨.and, [227, 228], 229⟩, ⟨.xor, [229, 410], 411⟩,
  ⟨.xor, [333, 396], 460⟩, ⟨.xor, [35, 411], 230⟩, ⟨.xor, [348, 411], 475⟩, ⟨.xor, [332, 395], 459⟩, ⟨.xor, [99, 411], 231⟩,
  ⟨.and, [230, 231], 232⟩, ⟨.xor, [232, 411], 412⟩, ⟨.xor, [349, 412], 476⟩, ⟨.xor, [331, 394], 458⟩, ⟨.xor, [100, 412], 234⟩,
  ⟨.xor, [36, 412], 233⟩, ⟨.and, [233, 234], 235⟩, ⟨.xor, [235, 412], 413⟩, ⟨.xor, [350, 413], 477⟩, ⟨.xor, [330, 393], 457⟩,
  ⟨.xor, [101, 413], 237⟩, ⟨.xor, [37, 413], 236⟩, ⟨.and, [236, 237], 238⟩, ⟨.xor, [238, 413], 414⟩, ⟨.xor, [351, 414], 478⟩,
  ⟨.xor, [329, 392], 456⟩, ⟨.xor, [102, 414], 240⟩, ⟨.xor, [38, 414], 239⟩, ⟨.and, [239, 240], 241⟩, ⟨.xor, [241, 414], 415⟩,
  ⟨.xor, [328, 391], 455⟩, ⟨.xor, [39, 415], 242⟩, ⟨.xor, [352, 415], 479⟩, ⟨.xor, [327, 390], 454⟩, ⟨.xor, [103, 415], 243⟩,
  ⟨.and, [242, 243], 244⟩, ⟨.xor, [244, 415], 416⟩, ⟨.xor, [353, 416], 480⟩, ⟨.xor, [326, 389], 453⟩, ⟨.xor, [104, 416], 246⟩,
  ⟨.xor, [40, 416], 245⟩, ⟨.and, [245, 246], 247⟩, ⟨.xor, [247, 416], 417⟩, ⟨.xor, [354, 417], 481⟩, ⟨.xor, [325, 388], 452⟩,
  ⟨.xor, [105, 417], 249⟩, ⟨.xor, [41, 417], 248⟩, ⟨.and, [248, 249], 250⟩, ⟨.xor, [250, 417], 418⟩, ⟨.xor, [355, 418], 482⟩,
  ⟨.xor, [324, 387], 451⟩, ⟨.xor, [106, 418], 252⟩, ⟨.xor, [42, 418], 251⟩, ⟨.and, [251, 252], 253⟩, ⟨.xor, [253, 418], 419⟩,
  ⟨.xor, [323, 386], 450⟩, ⟨.xor, [43, 419], 254⟩, ⟨.xor, [356, 419], 483⟩, ⟨.xor, [322, 385], 449⟩, ⟨.xor, [107, 419], 255⟩,
  ⟨.and, [254, 255], 256⟩, ⟨.xor, [256, 419], 420⟩, ⟨.xor, [357, 420], 484⟩, ⟨.xor, [321, 384], 448⟩, ⟨.xor, [108, 420], 258⟩,
  ⟨.xor, [44, 420], 257⟩, ⟨.and, [257, 258], 259⟩, ⟨.xor, [259, 420], 421⟩, ⟨.xor, [358, 421], 485⟩, ⟨.xor, [320, 383], 447⟩,
  ⟨.xor, [109, 421], 261⟩, ⟨.xor, [45, 421], 260⟩, ⟨.and, [260, 261], 262⟩, ⟨.xor, [262, 421], 422⟩, ⟨.xor, [359, 422], 486⟩,
  ⟨.xor, [319, 382], 446⟩, ⟨.xor, [110, 422], 264⟩, ⟨.xor, [46, 422], 263⟩, ⟨.and, [263, 264], 265⟩, ⟨.xor, [265, 422], 423⟩,
  ⟨.xor, [318, 381], 445⟩, ⟨.xor, [47, 423], 266⟩, ⟨.xor, [360, 423], 487⟩, ⟨.xor, [317, 380], 444⟩, ⟨.xor, [111, 423], 267⟩,
  ⟨.and, [266, 267], 268⟩, ⟨.xor, [268, 423], 424⟩, ⟨.xor, [361, 424], 488⟩, ⟨.xor, [316, 379], 443⟩, ⟨.xor, [112, 424], 270⟩,
  ⟨.xor, [48, 424], 269⟩, ⟨.and, [269, 270], 271⟩, ⟨.xor, [271, 424], 425⟩, ⟨.xor, [362, 425], 489⟩, ⟨.xor, [315, 378], 442⟩,
  ⟨.xor, [113, 425], 273⟩, ⟨.xor, [49, 425], 272⟩, ⟨.and, [272, 273], 274⟩, ⟨.xor, [274, 425], 426⟩, ⟨.xor, [363, 426], 490⟩,
  ⟨.xor, [314, 377], 441⟩, ⟨.xor, [114, 426], 276⟩, ⟨.xor, [50, 426], 275⟩, ⟨.and, [275, 276], 277⟩, ⟨.xor, [277, 426], 427⟩,
  ⟨.xor, [115, 427], 279⟩, ⟨.xor, [51, 427], 278⟩, ⟨.and, [278, 279], 280⟩, ⟨.xor, [280, 427], 428⟩, ⟨.xor, [116, 428], 282⟩,
  ⟨.xor, [52, 428], 281⟩, ⟨.and, [281, 282], 283⟩, ⟨.xor, [283, 428], 429⟩, ⟨.xor, [117, 429], 285⟩, ⟨.xor, [53, 429], 284⟩,
  ⟨.and, [284, 285], 286⟩, ⟨.xor, [286, 429], 430⟩, ⟨.xor, [118, 430], 288⟩, ⟨.xor, [54, 430], 287⟩, ⟨.and, [287, 288], 289⟩,
  ⟨.xor, [289, 430], 431⟩, ⟨.xor, [119, 431], 291⟩, ⟨.xor, [55, 431], 290⟩, ⟨.and, [290, 291], 292⟩, ⟨.xor, [292, 431], 432⟩,
  ⟨.xor, [120, 432], 294⟩, ⟨.xor, [56, 432], 293⟩, ⟨.and, [293, 294], 295⟩, ⟨.xor, [295, 432], 433⟩, ⟨.xor, [370, 433], 497⟩,
  ⟨.xor, [121, 433], 297⟩, ⟨.xor, [57, 433], 296⟩, ⟨.and, [296, 297], 298⟩, ⟨.xor, [298, 433], 434⟩, ⟨.xor, [371, 434], 498⟩,
  ⟨.xor, [369, 432], 496⟩, ⟨.xor, [122, 434], 300⟩, ⟨.xor, [58, 434], 299⟩, ⟨.and, [299, 300], 301⟩, ⟨.xor, [301, 434], 435⟩,
  ⟨.xor, [372, 435], 499⟩, ⟨.xor, [368, 431], 495⟩, ⟨.xor, [123, 435], 303⟩, ⟨.xor, [59, 435], 302⟩, ⟨.and, [302, 303], 304⟩,
  ⟨.xor, [304, 435], 436⟩, ⟨.xor, [367, 430], 494⟩, ⟨.xor, [60, 436], 305⟩, ⟨.xor, [373, 436], 500⟩, ⟨.xor, [366, 429], 493⟩,
  ⟨.xor, [124, 436], 306⟩, ⟨.and, [305, 306], 307⟩, ⟨.xor, [307, 436], 437⟩, ⟨.xor, [374, 437], 501⟩, ⟨.xor, [365, 428], 492⟩,
  ⟨.xor, [125, 437], 309⟩, ⟨.xor, [61, 437], 308⟩, ⟨.and, [308, 309], 310⟩, ⟨.xor, [310, 437], 438⟩, ⟨.xor, [375, 438], 502⟩,
  ⟨.xor, [364, 427], 491⟩, ⟨.xor, [126, 438], 312⟩, ⟨.xor, [62, 438], 311⟩, ⟨.and, [311, 312], 313⟩, ⟨.xor, [313, 438], 439⟩,
  ⟨.xor, [376, 439], 503⟩] }

def sub64File : File := { numGate := 439, numWire := 567, ins := [64, 64], outs := [64], gates := [
  ⟨.xor, [63, 127], 439⟩, ⟨.xor, [62, 126], 438⟩, ⟨.xor, [61, 125], 437⟩, ⟨.xor, [60, 124], 436⟩, ⟨.xor, [59, 123], 435⟩,
  ⟨.xor, [58, 122], 434⟩, ⟨.xor, [57, 121], 433⟩, ⟨.xor, [56, 120], 432⟩, ⟨.xor, [55, 119], 431⟩, ⟨.xor, [54, 118], 430⟩,
  ⟨.xor, [53, 117], 429⟩, ⟨.xor, [52, 116], 428⟩, ⟨.xor, [51, 115], 427⟩, ⟨.xor, [50, 114], 426⟩, ⟨.xor, [49, 113], 425⟩,
  ⟨.xor, [48, 112], 424⟩, ⟨.xor, [47, 111], 423⟩, ⟨.xor, [46, 110], 422⟩, ⟨.xor, [45, 109], 421⟩, ⟨.xor, [44, 108], 420⟩,
  ⟨.xor, [43, 107], 419⟩, ⟨.xor, [42, 106], 418⟩, ⟨.xor, [41, 105], 417⟩, ⟨.xor, [40, 104], 416⟩, ⟨.xor, [39, 103], 415⟩,
  ⟨.xor, [38, 102], 414⟩, ⟨.xor, [37, 101], 413⟩, ⟨.xor, [36, 100], 412⟩, ⟨.xor, [35, 99], 411⟩, ⟨.xor, [34, 98], 410⟩,
  ⟨.xor, [33, 97], 409⟩, ⟨.xor, [32, 96], 408⟩, ⟨.xor, [31, 95], 407⟩, ⟨.xor, [30, 94], 406⟩, ⟨.xor, [29, 93], 405⟩,
  ⟨.xor, [28, 92], 404⟩, ⟨.xor, [27, 91], 403⟩, ⟨.xor, [26, 90], 402⟩, ⟨.xor, [25, 89], 401⟩, ⟨.xor, [24, 88], 400⟩,
  ⟨.xor, [23, 87], 399⟩, ⟨.xor, [22, 86], 398⟩, ⟨.xor, [21, 85], 397⟩, ⟨.xor, [20, 84], 396⟩, ⟨.xor, [19, 83], 395⟩,
  ⟨.xor, [18, 82], 394⟩, ⟨.xor, [17, 81], 393⟩, ⟨.xor, [16, 80], 392⟩, ⟨.xor, [15, 79], 391⟩, ⟨.xor, [14, 78], 390⟩,
  ⟨.xor, [13, 77], 389⟩, ⟨.xor, [12, 76], 388⟩, ⟨.xor, [11, 75], 387⟩, ⟨.xor, [10, 74], 386⟩, ⟨.xor, [9, 73], 385⟩,
  ⟨.xor, [8, 72], 384⟩, ⟨.xor, [7, 71], 383⟩, ⟨.xor, [6, 70], 382⟩, ⟨.xor, [5, 69], 381⟩, ⟨.xor, [4, 68], 380⟩,
  ⟨.xor, [3, 67], 379⟩, ⟨.xor, [2, 66], 378⟩, ⟨.xor, [1, 65], 377⟩, ⟨.xor, [0, 64], 503⟩, ⟨.inv, [0], 314⟩,
  ⟨.and, [314, 64], 440⟩, ⟨.xor, [65, 440], 129⟩, ⟨.xor, [377, 440], 504⟩, ⟨.inv, [1], 315⟩, ⟨.xor, [315, 440], 128⟩,
  ⟨.and, [128, 129], 130⟩, ⟨.xor, [130, 440], 441⟩, ⟨.xor, [66, 441], 132⟩, ⟨.xor, [378, 441], 505⟩, ⟨.inv, [2], 316⟩,
  ⟨.xor, [316, 441], 131⟩, ⟨.and, [131, 132], 133⟩, ⟨.xor, [133, 441], 442⟩, ⟨.xor, [67, 442], 135⟩, ⟨.xor, [379, 442], 506⟩,
  ⟨.inv, [3], 317⟩, ⟨.xor, [317, 442], 134⟩, ⟨.and, [134, 135], 136⟩, ⟨.xor, [136, 442], 443⟩, ⟨.xor, [68, 443], 138⟩,
  ⟨.xor, [380, 443], 507⟩, ⟨.inv, [4], 318⟩, ⟨.xor, [318, 443], 137⟩, ⟨.and, [137, 138], 139⟩, ⟨.xor, [139, 443], 444⟩,
  ⟨.xor, [69, 444], 141⟩, ⟨.xor, [381, 444], 508⟩, ⟨.inv, [5], 319⟩, ⟨.xor, [319, 444], 140⟩, ⟨.and, [140, 141], 142⟩,
  ⟨.xor, [142, 444], 445⟩, ⟨.xor, [70, 445], 144⟩, ⟨.xor, [382, 445], 509⟩, ⟨.inv, [6], 320⟩, ⟨.xor, [320, 445], 143⟩,
  ⟨.and, [143, 144], 145⟩, ⟨.xor, [145, 445], 446⟩, ⟨.xor, [71, 446], 147⟩, ⟨.xor, [383, 446], 510⟩, ⟨.inv, [7], 321⟩,
  ⟨.xor, [321, 446], 146⟩, ⟨.and, [146, 147], 148⟩, ⟨.xor, [148, 446], 447⟩, ⟨.xor, [72, 447], 150⟩, ⟨.xor, [384, 447], 511⟩,
  ⟨.inv, [8], 322⟩, ⟨.xor, [322, 447], 149⟩, ⟨.and, [149, 150], 151⟩, ⟨.xor, [151, 447], 448⟩, ⟨.xor, [73, 448], 153⟩,
  ⟨.xor, [385, 448], 512⟩, ⟨.inv, [9], 323⟩, ⟨.xor, [323, 448], 152⟩, ⟨.and, [152, 153], 154⟩, ⟨.xor, [154, 448], 449⟩,
  ⟨.xor, [74, 449], 156⟩, ⟨.xor, [386, 449], 513⟩, ⟨.inv, [10], 324⟩, ⟨.xor, [324, 449], 155⟩, ⟨.and, [155, 156], 157⟩,
  ⟨.xor, [157, 449], 450⟩, ⟨.xor, [75, 450], 159⟩, ⟨.xor, [387, 450], 514⟩, ⟨.inv, [11], 325⟩, ⟨.xor, [325, 450], 158⟩,
  ⟨.and, [158, 159], 160⟩, ⟨.xor, [160, 450], 451⟩, ⟨.xor, [76, 451], 162⟩, ⟨.xor, [388, 451], 515⟩, ⟨.inv, [12], 326⟩,
  ⟨.xor, [326, 451], 161⟩, ⟨.and, [161, 162], 163⟩, ⟨.xor, [163, 451], 452⟩, ⟨.xor, [77, 452], 165⟩, ⟨.xor, [389, 452], 516⟩,
  ⟨.inv, [13], 327⟩, ⟨.xor, [327, 452], 164⟩, ⟨.and, [164, 165], 166⟩, ⟨.xor, [166, 452], 453⟩, ⟨.xor, [78, 453], 168⟩,
  ⟨.xor, [390, 453], 517⟩, ⟨.inv, [14], 328⟩, ⟨.xor, [328, 453], 167⟩, ⟨.and, [167, 168], 169⟩, ⟨.xor, [169, 453], 454⟩,
  ⟨.xor, [79, 454], 171⟩, ⟨.xor, [391, 454], 518⟩, ⟨.inv, [15], 329⟩, ⟨.xor, [329, 454], 170⟩, ⟨.and, [170, 171], 172⟩,
  ⟨.xor, [172, 454], 455⟩, ⟨.xor, [80, 455], 174⟩, ⟨.xor, [392, 455], 519⟩, ⟨.inv, [16], 330⟩, ⟨.xor, [330, 455], 173⟩,
  ⟨.and, [173, 174], 175⟩, ⟨.xor, [175, 455], 456⟩, ⟨.xor, [81, 456], 177⟩, ⟨.xor, [393, 456], 520⟩, ⟨.inv, [17], 331⟩,
  ⟨.xor, [331, 456], 176⟩, ⟨.and, [176, 177], 178⟩, ⟨.xor, [178, 456], 457⟩, ⟨.xor, [82, 457], 180⟩, ⟨.xor, [394, 457], 521⟩,
  ⟨.inv, [18], 332⟩, ⟨.xor, [332, 457], 179⟩, ⟨.and, [179, 180], 181⟩, ⟨.xor, [181, 457], 458⟩, ⟨.xor, [83, 458], 183⟩,
  ⟨.xor, [395, 458], 522⟩, ⟨.inv, [19], 333⟩, ⟨.xor, [333, 458], 182⟩, ⟨.and, [182, 183], 184⟩, ⟨.xor, [184, 458], 459⟩,
  ⟨.xor, [84, 459], 186⟩, ⟨.xor, [396, 459], 523⟩, ⟨.inv, [20], 334⟩, ⟨.xor, [334, 459], 185⟩, ⟨.and, [185, 186], 187⟩,
  ⟨.xor, [187, 459], 460⟩, ⟨.xor, [85, 460], 189⟩, ⟨.xor, [397, 460], 524⟩, ⟨.inv, [21], 335⟩, ⟨.xor, [335, 460], 188⟩,
  ⟨.and, [188, 189], 190⟩, ⟨.xor, [190, 460], 461⟩, ⟨.xor, [86, 461], 192⟩, ⟨.xor, [398, 461], 525⟩, ⟨.inv, [22], 336⟩,
  ⟨.xor, [336, 461], 191⟩, ⟨.and, [191, 192], 193⟩, ⟨.xor, [193, 461], 462⟩, ⟨.xor, [399, 462], 526⟩, ⟨.xor, [87, 462], 195⟩,
  ⟨.inv, [23], 337⟩, ⟨.xor, [337, 462], 194⟩, ⟨.and, [194, 195], 196⟩, ⟨.xor, [196, 462], 463⟩, ⟨.xor, [88, 463], 198⟩,
  ⟨.xor, [400, 463], 527⟩, ⟨.inv, [24], 338⟩, ⟨.xor, [338, 463], 197⟩, ⟨.and, [197, 198], 199⟩, ⟨.xor, [199, 463], 464⟩,
  ⟨.xor, [401, 464], 528⟩, ⟨.xor, [89, 464], 201⟩, ⟨.inv, [25], 339⟩, ⟨.xor, [339, 464], 200⟩, ⟨.and, [200, 201], 202⟩,
  ⟨.xor, [202, 464], 465⟩, ⟨.xor, [402, 465], 529⟩, ⟨.xor, [90, 465], 204⟩, ⟨.inv, [26], 340⟩, ⟨.xor, [340, 465], 203⟩,
  ⟨.and, [203, 204], 205⟩, ⟨.xor, [205, 465], 466⟩, ⟨.xor, [91, 466], 207⟩, ⟨.xor, [403, 466], 530⟩, ⟨.inv, [27], 341⟩,
  ⟨.xor, [341, 466], 206⟩, ⟨.and, [206, 207], 208⟩, ⟨.xor, [208, 466], 467⟩, ⟨.xor, [92, 467], 210⟩, ⟨.xor, [404, 467], 531⟩,
  ⟨.inv, [28], 342⟩, ⟨.xor, [342, 467], 209⟩, ⟨.and, [209, 210], 211⟩, ⟨.xor, [211, 467], 468⟩, ⟨.xor, [405, 468], 532⟩,
  ⟨.xor, [93, 468], 213⟩, ⟨.inv, [29], 343⟩, ⟨.xor, [343, 468], 212⟩, ⟨.and, [212, 213], 214⟩, ⟨.xor, [214, 468], 469⟩,
  ⟨.xor, [94, 469], 216⟩, ⟨.xor, [406, 469], 533⟩, ⟨.inv, [30], 344⟩, ⟨.xor, [344, 469], 215⟩, ⟨.and, [215, 216], 217⟩,
  ⟨.xor, [217, 469], 470⟩, ⟨.xor, [407, 470], 534⟩, ⟨.xor, [95, 470], 219⟩, ⟨.inv, [31], 345⟩, ⟨.xor, [345, 470], 218⟩,
  ⟨.and, [218, 219], 220⟩, ⟨.xor, [220, 470], 471⟩, ⟨.xor, [96, 471], 222⟩, ⟨.xor, [408, 471], 535⟩, ⟨.inv, [32], 346⟩,
  ⟨.xor, [346, 471], 221⟩, ⟨.and, [221, 222], 223⟩, ⟨.xor, [223, 471], 472⟩, ⟨.xor, [97, 472], 225⟩, ⟨.xor, [409, 472], 536⟩,
  ⟨.inv, [33], 347⟩, ⟨.xor, [347, 472], 224⟩, ⟨.and, [224, 225], 226⟩, ⟨.xor, [226, 472], 473⟩, ⟨.xor, [410, 473], 537⟩,
  ⟨.xor, [98, 473], 228⟩, ⟨.inv, [34], 348⟩, ⟨.xor, [348, 473], 227⟩, ⟨.and, [227, 228], 229⟩, ⟨.xor, [229, 473], 474⟩,
  ⟨.xor, [411, 474], 538⟩, ⟨.xor, [99, 474], 231⟩, ⟨.inv, [35], 349⟩, ⟨.xor, [349, 474], 230⟩, ⟨.and, [230, 231], 232⟩,
  ⟨.xor, [232, 474], 475⟩, ⟨.xor, [412, 475], 539⟩, ⟨.xor, [100, 475], 234⟩, ⟨.inv, [36], 350⟩, ⟨.xor, [350, 475], 233⟩,
  ⟨.and, [233, 234], 235⟩, ⟨.xor, [235, 475], 476⟩, ⟨.xor, [413, 476], 540⟩, ⟨.xor, [101, 476], 237⟩, ⟨.inv, [37], 351⟩,
  ⟨.xor, [351, 476], 236⟩, ⟨.and, [236, 237], 238⟩, ⟨.xor, [238, 476], 477⟩, ⟨.xor, [414, 477], 541⟩, ⟨.xor, [102, 477], 240⟩,
  ⟨.inv, [38], 352⟩, ⟨.xor, [352, 477], 239⟩, ⟨.and, [239, 240], 241⟩, ⟨.xor, [241, 477], 478⟩, ⟨.xor, [103, 478], 243⟩,
  ⟨.xor, [415, 478], 542⟩, ⟨.inv, [39], 353⟩, ⟨.xor, [353, 478], 242⟩, ⟨.and, [242, 243], 244⟩, ⟨.xor, [244, 478], 479⟩,
  ⟨.xor, [416, 479], 543⟩, ⟨.xor, [104, 479], 246⟩, ⟨.inv, [40], 354⟩, ⟨.xor, [354, 479], 245⟩, ⟨.and, [245, 246], 247⟩,
  ⟨.xor, [247, 479], 480⟩, ⟨.xor, [417, 480], 544⟩, ⟨.xor, [105, 480], 249⟩, ⟨.inv, [41], 355⟩, ⟨.xor, [355, 480], 248⟩,
  ⟨.and, [248, 249], 250⟩, ⟨.xor, [250, 480], 481⟩, ⟨.xor, [418, 481], 545⟩, ⟨.xor, [106, 481], 252⟩, ⟨.inv, [42], 356⟩,
  ⟨.xor, [356, 481], 251⟩, ⟨.and, [251, 252], 253⟩, ⟨.xor, [253, 481], 482⟩, ⟨.xor, [107, 482], 255⟩, ⟨.xor, [419, 482], 546⟩,
  ⟨.inv, [43], 357⟩, ⟨.xor, [357, 482], 254⟩, ⟨.and, [254, 255], 256⟩, ⟨.xor, [256, 482], 483⟩, ⟨.xor, [420, 483], 547⟩,
  ⟨.xor, [108, 483], 258⟩, ⟨.inv, [44], 358⟩, ⟨.xor, [358, 483], 257⟩, ⟨.and, [257, 258], 259⟩, ⟨.xor, [259, 483], 484⟩,
  ⟨.xor, [109, 484], 261⟩, ⟨.xor, [421, 484], 548⟩, ⟨.inv, [45], 359⟩, ⟨.xor, [359, 484], 260⟩, ⟨.and, [260, 261], 262⟩,
  ⟨.xor, [262, 484], 485⟩, ⟨.xor, [422, 485], 549⟩, ⟨.xor, [110, 485], 264⟩, ⟨.inv, [46], 360⟩, ⟨.xor, [360, 485], 263⟩,
  ⟨.and, [263, 264], 265⟩, ⟨.xor, [265, 485], 486⟩, ⟨.xor, [423, 486], 550⟩, ⟨.xor, [111, 486], 267⟩, ⟨.inv, [47], 361⟩,
  ⟨.xor, [361, 486], 266⟩, ⟨.and, [266, 267], 268⟩, ⟨.xor, [268, 486], 487⟩, ⟨.xor, [112, 487], 270⟩, ⟨.xor, [424, 487], 551⟩,
  ⟨.inv, [48], 362⟩, ⟨.xor, [362, 487], 269⟩, ⟨.and, [269, 270], 271⟩, ⟨.xor, [271, 487], 488⟩, ⟨.xor, [113, 488], 273⟩,
  ⟨.xor, [425, 488], 552⟩, ⟨.inv, [49], 363⟩, ⟨.xor, [363, 488], 272⟩, ⟨.and, [272, 273], 274⟩, ⟨.xor, [274, 488], 489⟩,
  ⟨.xor, [114, 489], 276⟩, ⟨.xor, [426, 489], 553⟩, ⟨.inv, [50], 364⟩, ⟨.xor, [364, 489], 275⟩, ⟨.and, [275, 276], 277⟩,
  ⟨.xor, [277, 489], 490⟩, ⟨.xor, [115, 490], 279⟩, ⟨.xor, [427, 490], 554⟩, ⟨.inv, [51], 365⟩, ⟨.xor, [365, 490], 278⟩,
  ⟨.and, [278, 279], 280⟩, ⟨.xor, [280, 490], 491⟩, ⟨.xor, [116, 491], 282⟩, ⟨.xor, [428, 491], 555⟩, ⟨.inv, [52], 366⟩,
  ⟨.xor, [366, 491], 281⟩, ⟨.and, [281, 282], 283⟩, ⟨.xor, [283, 491], 492⟩, ⟨.xor, [117, 492], 285⟩, ⟨.xor, [429, 492], 556⟩,
  ⟨.inv, [53], 367⟩, ⟨.xor, [367, 492], 284⟩, ⟨.and, [284, 285], 286⟩, ⟨.xor, [286, 492], 493⟩, ⟨.xor, [118, 493], 288⟩,
  ⟨.xor, [430, 493], 557⟩, ⟨.inv, [54], 368⟩, ⟨.xor, [368, 493], 287⟩, ⟨.and, [287, 288], 289⟩, ⟨.xor, [289, 493], 494⟩,
  ⟨.xor, [431, 494], 558⟩, ⟨.xor, [119, 494], 291⟩, ⟨.inv, [55], 369⟩, ⟨.xor, [369, 494], 290⟩, ⟨.and, [290, 291], 292⟩,
  ⟨.xor, [292, 494], 495⟩, ⟨.xor, [432, 495], 559⟩, ⟨.xor, [120, 495], 294⟩, ⟨.inv, [56], 370⟩, ⟨.xor, [370, 495], 293⟩,
  ⟨.and, [293, 294], 295⟩, ⟨.xor, [295, 495], 496⟩, ⟨.xor, [121, 496], 297⟩, ⟨.xor, [433, 496], 560⟩, ⟨.inv, [57], 371⟩,
  ⟨.xor, [371, 496], 296⟩, ⟨.and, [296, 297], 298⟩, ⟨.xor, [298, 496], 497⟩, ⟨.xor, [122, 497], 300⟩, ⟨.xor, [434, 497], 561⟩,
  ⟨.inv, [58], 372⟩, ⟨.xor, [372, 497], 299⟩, ⟨.and, [299, 300], 301⟩, ⟨.xor, [301, 497], 498⟩, ⟨.xor, [123, 498], 303⟩,
  ⟨.xor, [435, 498], 562⟩, ⟨.inv, [59], 373⟩, ⟨.xor, [373, 498], 302⟩, ⟨.and, [302, 303], 304⟩, ⟨.xor, [304, 498], 499⟩,
  ⟨.xor, [436, 499], 563⟩, ⟨.xor, [124, 499], 306⟩, ⟨.inv, [60], 374⟩, ⟨.xor, [374, 499], 305⟩, ⟨.and, [305, 306], 307⟩,
  ⟨.xor, [307, 499], 500⟩, ⟨.xor, [125, 500], 309⟩, ⟨.xor, [437, 500], 564⟩, ⟨.inv, [61], 375⟩, ⟨.xor, [375, 500], 308⟩,
  ⟨.and, [308, 309], 310⟩, ⟨.xor, [310, 500], 501⟩, ⟨.xor, [438, 501], 565⟩, ⟨.xor, [126, 501], 312⟩, ⟨.inv, [62], 376⟩,
  ⟨.xor, [376, 501], 311⟩, ⟨.and, [311, 312], 313⟩, ⟨.xor, [313, 501], 502⟩, ⟨.xor, [439, 502], 566⟩] }

def neg64File : File := { numGate := 190, numWire := 254, ins := [64], outs := [64], gates := [
  ⟨.eqw, [0], 190⟩, ⟨.inv, [1], 83⟩, ⟨.inv, [0], 82⟩, ⟨.and, [83, 82], 105⟩, ⟨.inv, [2], 104⟩,
  ⟨.and, [105, 104], 127⟩, ⟨.inv, [3], 126⟩, ⟨.and, [127, 126], 149⟩, ⟨.inv, [4], 148⟩, ⟨.and, [149, 148], 171⟩,
  ⟨.inv, [5], 170⟩, ⟨.and, [171, 170], 183⟩, ⟨.inv, [6], 182⟩, ⟨.and, [183, 182], 185⟩, ⟨.inv, [7], 184⟩,
  ⟨.and, [185, 184], 187⟩, ⟨.inv, [8], 186⟩, ⟨.and, [187, 186], 189⟩, ⟨.inv, [9], 188⟩, ⟨.and, [189, 188], 65⟩,
  ⟨.inv, [10], 64⟩, ⟨.xor, [65, 64], 200⟩, ⟨.and, [65, 64], 67⟩, ⟨.inv, [11], 66⟩, ⟨.xor, [67, 66], 201⟩,
  ⟨.and, [67, 66], 69⟩, ⟨.inv, [12], 68⟩, ⟨.xor, [69, 68], 202⟩, ⟨.and, [69, 68], 71⟩, ⟨.inv, [13], 70⟩,
  ⟨.xor, [71, 70], 203⟩, ⟨.and, [71, 70], 73⟩, ⟨.inv, [14], 72⟩, ⟨.xor, [73, 72], 204⟩, ⟨.and, [73, 72], 75⟩,
  ⟨.inv, [15], 74⟩, ⟨.xor, [75, 74], 205⟩, ⟨.and, [75, 74], 77⟩, ⟨.inv, [16], 76⟩, ⟨.xor, [77, 76], 206⟩,
  ⟨.and, [77, 76], 79⟩, ⟨.inv, [17], 78⟩, ⟨.xor, [79, 78], 207⟩, ⟨.and, [79, 78], 81⟩, ⟨.inv, [18], 80⟩,
  ⟨.xor, [81, 80], 208⟩, ⟨.and, [81, 80], 85⟩, ⟨.inv, [19], 84⟩, ⟨.xor, [85, 84], 209⟩, ⟨.xor, [83, 82], 191⟩,
  ⟨.and, [85, 84], 87⟩, ⟨.inv, [20], 86⟩, ⟨.xor, [87, 86], 210⟩, ⟨.and, [87, 86], 89⟩, ⟨.inv, [21], 88⟩,
  ⟨.xor, [89, 88], 211⟩, ⟨.and, [89, 88], 91⟩, ⟨.inv, [22], 90⟩, ⟨.xor, [91, 90], 212⟩, ⟨.and, [91, 90], 93⟩,
  ⟨.inv, [23], 92⟩, ⟨.xor, [93, 92], 213⟩, ⟨.and, [93, 92], 95⟩, ⟨.inv, [24], 94⟩, ⟨.xor, [95, 94], 214⟩,
  ⟨.and, [95, 94], 97⟩, ⟨.inv, [25], 96⟩, ⟨.xor, [97, 96], 215⟩, ⟨.and, [97, 96], 99⟩, ⟨.inv, [26], 98⟩,
  ⟨.xor, [99, 98], 216⟩, ⟨.and, [99, 98], 101⟩, ⟨.inv, [27], 100⟩, ⟨.xor, [101, 100], 217⟩, ⟨.and, [101, 100], 103⟩,
  ⟨.inv, [28], 102⟩, ⟨.xor, [103, 102], 218⟩, ⟨.and, [103, 102], 107⟩, ⟨.inv, [29], 106⟩, ⟨.xor, [107, 106], 219⟩,
  ⟨.xor, [105, 104], 192⟩, ⟨.and, [107, 106], 109⟩, ⟨.inv, [30], 108⟩, ⟨.xor, [109, 108], 220⟩, ⟨.and, [109, 108], 111⟩,
  ⟨.inv, [31], 110⟩, ⟨.xor, [111, 110], 221⟩, ⟨.and, [111, 110], 113⟩, ⟨.inv, [32], 112⟩, ⟨.xor, [113, 112], 222⟩,
  ⟨.and, [113, 112], 115⟩, ⟨.inv, [33], 114⟩, ⟨.xor, [115, 114], 223⟩, ⟨.and, [115, 114], 117⟩, ⟨.inv, [34], 116⟩,
  ⟨.xor, [117, 116], 224⟩, ⟨.and, [117, 116], 119⟩, ⟨.inv, [35], 118⟩, ⟨.xor, [119, 118], 225⟩, ⟨.and, [119, 118], 121⟩,
  ⟨.inv, [36], 120⟩, ⟨.xor, [121, 120], 226⟩, ⟨.and, [121, 120], 123⟩, ⟨.inv, [37], 122⟩, ⟨.xor, [123, 122], 227⟩,
  ⟨.and, [123, 122], 125⟩, ⟨.inv, [38], 124⟩, ⟨.xor, [125, 124], 228⟩, ⟨.and, [125, 124], 129⟩, ⟨.inv, [39], 128⟩,
  ⟨.xor, [129, 128], 229⟩, ⟨.xor, [127, 126], 193⟩, ⟨.and, [129, 128], 131⟩, ⟨.inv, [40], 130⟩, ⟨.xor, [131, 130], 230⟩,
  ⟨.and, [131, 130], 133⟩, ⟨.inv, [41], 132⟩, ⟨.xor, [133, 132], 231⟩, ⟨.and, [133, 132], 135⟩, ⟨.inv, [42], 134⟩,
  ⟨.xor, [135, 134], 232⟩, ⟨.and, [135, 134], 137⟩, ⟨.inv, [43], 136⟩, ⟨.xor, [137, 136], 233⟩, ⟨.and, [137, 136], 139⟩,
  ⟨.inv, [44], 138⟩, ⟨.xor, [139, 138], 234⟩, ⟨.and, [139, 138], 141⟩, ⟨.inv, [45], 140⟩, ⟨.xor, [141, 140], 235⟩,
  ⟨.and, [141, 140], 143⟩, ⟨.inv, [46], 142⟩, ⟨.xor, [143, 142], 236⟩, ⟨.and, [143, 142], 145⟩, ⟨.inv, [47], 144⟩,
  ⟨.xor, [145, 144], 237⟩, ⟨.and, [145, 144], 147⟩, ⟨.inv, [48], 146⟩, ⟨.xor, [147, 146], 238⟩, ⟨.and, [147, 146], 151⟩,
  ⟨.inv, [49], 150⟩, ⟨.xor, [151, 150], 239⟩, ⟨.xor, [149, 148], 194⟩, ⟨.and, [151, 150], 153⟩, ⟨.inv, [50], 152⟩,
  ⟨.xor, [153, 152], 240⟩, ⟨.and, [153, 152], 155⟩, ⟨.inv, [51], 154⟩, ⟨.xor, [155, 154], 241⟩, ⟨.and, [155, 154], 157⟩,
  ⟨.inv, [52], 156⟩, ⟨.xor, [157, 156], 242⟩, ⟨.and, [157, 156], 159⟩, ⟨.inv, [53], 158⟩, ⟨.xor, [159, 158], 243⟩,
  ⟨.and, [159, 158], 161⟩, ⟨.inv, [54], 160⟩, ⟨.xor, [161, 160], 244⟩, ⟨.and, [161, 160], 163⟩, ⟨.inv, [55], 162⟩,
  ⟨.xor, [163, 162], 245⟩, ⟨.and, [163, 162], 165⟩, ⟨.inv, [56], 164⟩, ⟨.xor, [165, 164], 246⟩, ⟨.and, [165, 164], 167⟩,
  ⟨.inv, [57], 166⟩, ⟨.xor, [167, 166], 247⟩, ⟨.and, [167, 166], 169⟩, ⟨.inv, [58], 168⟩, ⟨.xor, [169, 168], 248⟩,
  ⟨.and, [169, 168], 173⟩, ⟨.inv, [59], 172⟩, ⟨.xor, [173, 172], 249⟩, ⟨.xor, [171, 170], 195⟩, ⟨.and, [173, 172], 175⟩,
  ⟨.inv, [60], 174⟩, ⟨.xor, [175, 174], 250⟩, ⟨.and, [175, 174], 177⟩, ⟨.inv, [61], 176⟩, ⟨.xor, [177, 176], 251⟩,
  ⟨.and, [177, 176], 178⟩, ⟨.inv, [62], 179⟩, ⟨.xor, [178, 179], 252⟩, ⟨.and, [179, 178], 180⟩, ⟨.xor, [63, 180], 181⟩,
  ⟨.inv, [181], 253⟩, ⟨.xor, [183, 182], 196⟩, ⟨.xor, [185, 184], 197⟩, ⟨.xor, [187, 186], 198⟩, ⟨.xor, [189, 188], 199⟩] }

end CC.Bundled
